import Verif.Misc.ScanDouble
import Mathlib.Tactic.Linarith
import Mathlib.Tactic.Ring
import Mathlib.Tactic.NormNum
import Mathlib.Tactic.FieldSimp
/-
How far the mantissa and the exponent of `kos_parse_double` are from the number which the literal denotes.
-/
namespace Verif.Misc
open Spec

/-- The number which a mantissa and an exponent stand for. -/
def val (m : Nat) (e : Int) : ℚ := m * 2 ^ (e - 63)

/-- Relative error of one multiplication or division by ten. -/
def eps : ℚ := 1 / 2 ^ 64

theorem eps_pos : 0 < eps := by unfold eps; norm_num

def Norm (m : Nat) : Prop := 2 ^ 63 ≤ m ∧ m < 2 ^ 64

theorem two_zpow_pos (e : Int) : (0 : ℚ) < 2 ^ e := zpow_pos (by norm_num) e

theorem val_pos {m : Nat} (e : Int) (h : Norm m) : 0 < val m e := by
  unfold val
  have : (0 : ℚ) < m := by exact_mod_cast (show 0 < m by have := h.1; omega)
  exact mul_pos this (two_zpow_pos _)

theorem val_lt {m : Nat} (e : Int) (h : Norm m) : val m e < 2 ^ (e + 1) := by
  unfold val
  have h1 : (m : ℚ) < 2 ^ 64 := by exact_mod_cast h.2
  have h2 : (2 : ℚ) ^ (e + 1) = 2 ^ 64 * 2 ^ (e - 63) := by
    rw [← zpow_natCast, ← zpow_add₀ (by norm_num)]; congr 1; push_cast; ring
  rw [h2]
  exact mul_lt_mul_of_pos_right h1 (two_zpow_pos _)

theorem le_val {m : Nat} (e : Int) (h : Norm m) : 2 ^ e ≤ val m e := by
  unfold val
  have h1 : (2 : ℚ) ^ 63 ≤ m := by exact_mod_cast h.1
  have h2 : (2 : ℚ) ^ e = 2 ^ 63 * 2 ^ (e - 63) := by
    rw [← zpow_natCast, ← zpow_add₀ (by norm_num)]; congr 1; push_cast; ring
  rw [h2]
  exact mul_le_mul_of_nonneg_right h1 (two_zpow_pos _).le

theorem div_step (m m' s : Nat) (e : Int) (h' : Norm m') (h1 : 10 * m' ≤ 2 ^ s * m + 5) (h2 : 2 ^ s * m ≤ 10 * m' + 5) :
    10 * val m' (e - s) * (1 - eps) ≤ val m e ∧ val m e ≤ 10 * val m' (e - s) * (1 + eps) := by
  have hu : (2 : ℚ) ^ (e - 63) = 2 ^ s * 2 ^ (e - s - 63) := by
    rw [← zpow_natCast, ← zpow_add₀ (by norm_num)]; congr 1; ring
  unfold val
  rw [hu]
  have hp := two_zpow_pos (e - s - 63)
  generalize (2 : ℚ) ^ (e - s - 63) = u at *
  have a1 : (10 : ℚ) * m' ≤ 2 ^ s * m + 5 := by exact_mod_cast h1
  have a2 : (2 : ℚ) ^ s * m ≤ 10 * m' + 5 := by exact_mod_cast h2
  have a3 : (5 : ℚ) ≤ 10 * m' * eps := by
    have : (2 : ℚ) ^ 63 ≤ m' := by exact_mod_cast h'.1
    unfold eps; linarith
  constructor
  · nlinarith
  · nlinarith

theorem mul_step (m m' s : Nat) (e : Int) (h' : Norm m') (h1 : 2 * (m' * 2 ^ s) ≤ 20 * m + 2 ^ s)
    (h2 : 20 * m ≤ 2 * (m' * 2 ^ s) + 2 ^ s) :
    val m' (e + s) * (1 - eps) ≤ 10 * val m e ∧ 10 * val m e ≤ val m' (e + s) * (1 + eps) := by
  have hu : (2 : ℚ) ^ (e + s - 63) = 2 ^ s * 2 ^ (e - 63) := by
    rw [← zpow_natCast, ← zpow_add₀ (by norm_num)]; congr 1; ring
  unfold val
  rw [hu]
  have hp := two_zpow_pos (e - 63)
  generalize (2 : ℚ) ^ (e - 63) = u at *
  have a1 : 2 * ((m' : ℚ) * 2 ^ s) ≤ 20 * m + 2 ^ s := by exact_mod_cast h1
  have a2 : (20 : ℚ) * m ≤ 2 * (m' * 2 ^ s) + 2 ^ s := by exact_mod_cast h2
  have a3 : (2 : ℚ) ^ s / 2 ≤ m' * 2 ^ s * eps := by
    have : (2 : ℚ) ^ 63 ≤ m' := by exact_mod_cast h'.1
    have hs : (0 : ℚ) < 2 ^ s := by positivity
    unfold eps; nlinarith
  constructor
  · nlinarith
  · nlinarith

theorem one_sub_mul (n : Nat) : 1 - ((n + 1 : Nat) : ℚ) * eps ≤ (1 - n * eps) * (1 - eps) := by
  have : (0 : ℚ) ≤ n * (eps * eps) := by have := eps_pos; positivity
  push_cast; linarith

theorem one_sub_nonneg (n : Nat) (h : n ≤ 400) : 0 ≤ 1 - (n : ℚ) * eps := by
  have : (n : ℚ) ≤ 400 := by exact_mod_cast h
  unfold eps; linarith

theorem divLoop_run (n m : Nat) (e : Int) (hm : Norm m) :
    ∃ (m' : Nat) (e' : Int), divLoop n m e = some (m', e') ∧ Norm m' ∧ e' ≤ e - 3 * n ∧
      (n ≤ 400 → val m' e' * 10 ^ n * (1 - n * eps) ≤ val m e ∧ val m e * (1 - n * eps) ≤ val m' e' * 10 ^ n) := by
  induction n generalizing m e with
  | zero => exact ⟨m, e, rfl, hm, by simp, fun _ => by simp⟩
  | succ n ih =>
    obtain ⟨m1, s, hs, hd, h1, h2, h3, h4⟩ := divTen_spec m e hm.1 hm.2
    obtain ⟨m', e', k1, k2, k3, k4⟩ := ih m1 (e - s) ⟨h1, h2⟩
    refine ⟨m', e', ?_, k2, by push_cast; omega, ?_⟩
    · rw [divLoop, hd]; exact k1
    · intro hn
      obtain ⟨b1, b2⟩ := k4 (by omega)
      obtain ⟨c1, c2⟩ := div_step m m1 s e ⟨h1, h2⟩ h3 h4
      have hv := val_pos e' k2
      have hv1 := val_pos (e - s) (m := m1) ⟨h1, h2⟩
      have hv0 := val_pos e hm
      have hne := one_sub_mul n
      have hnn := one_sub_nonneg n (by omega)
      have he := eps_pos
      have h1e : (0 : ℚ) ≤ 1 - eps := by unfold eps; norm_num
      have hX : (0 : ℚ) < val m' e' * 10 ^ n := mul_pos hv (by positivity)
      generalize hXe : val m' e' * 10 ^ n = X at *
      have hX' : val m' e' * 10 ^ (n + 1) = 10 * X := by rw [← hXe, pow_succ]; ring
      rw [hX']
      generalize val m1 (e - s) = Y at *
      generalize val m e = Z at *
      generalize 1 - (n : ℚ) * eps = q at *
      generalize 1 - ((n + 1 : Nat) : ℚ) * eps = q' at *
      constructor
      · calc 10 * X * q' ≤ 10 * X * (q * (1 - eps)) := mul_le_mul_of_nonneg_left hne (by linarith)
          _ = 10 * (X * q) * (1 - eps) := by ring
          _ ≤ 10 * Y * (1 - eps) := mul_le_mul_of_nonneg_right (by linarith) h1e
          _ ≤ Z := c1
      · have h5 : Z * (1 - eps) ≤ 10 * Y := by
          calc Z * (1 - eps) ≤ 10 * Y * (1 + eps) * (1 - eps) := mul_le_mul_of_nonneg_right c2 h1e
            _ = 10 * Y - 10 * Y * (eps * eps) := by ring
            _ ≤ 10 * Y := by have : 0 ≤ 10 * Y * (eps * eps) := by positivity
                             linarith
        calc Z * q' ≤ Z * (q * (1 - eps)) := mul_le_mul_of_nonneg_left hne hv0.le
          _ = (Z * (1 - eps)) * q := by ring
          _ ≤ 10 * Y * q := mul_le_mul_of_nonneg_right h5 hnn
          _ = 10 * (Y * q) := by ring
          _ ≤ 10 * X := by linarith

theorem mulLoop_run (n m : Nat) (e : Int) (hm : Norm m) :
    ∃ (m' : Nat) (e' : Int), mulLoop n m e = (m', e') ∧ Norm m' ∧ e + 3 * n ≤ e' ∧
      (n ≤ 400 → val m' e' * (1 - n * eps) ≤ val m e * 10 ^ n ∧ val m e * 10 ^ n * (1 - n * eps) ≤ val m' e') := by
  induction n generalizing m e with
  | zero => exact ⟨m, e, rfl, hm, by simp, fun _ => by simp⟩
  | succ n ih =>
    obtain ⟨s, hs, hd, h1, h2, h3, h4⟩ := mulAdd_zero m e hm.1 hm.2
    rw [mulLoop, hd]
    generalize (mulAdd m e 0).1 = m1 at *
    obtain ⟨m', e', k1, k2, k3, k4⟩ := ih m1 (e + s) ⟨h1, h2⟩
    refine ⟨m', e', k1, k2, by push_cast; omega, ?_⟩
    intro hn
    obtain ⟨b1, b2⟩ := k4 (by omega)
    obtain ⟨c1, c2⟩ := mul_step m m1 s e ⟨h1, h2⟩ h3 h4
    have hv := val_pos e' k2
    have hv1 := val_pos (e + s) (m := m1) ⟨h1, h2⟩
    have hv0 := val_pos e hm
    have hne := one_sub_mul n
    have hnn := one_sub_nonneg n (by omega)
    have he := eps_pos
    have h1e : (0 : ℚ) ≤ 1 - eps := by unfold eps; norm_num
    have ht : (0 : ℚ) < 10 ^ n := by positivity
    rw [pow_succ]
    generalize val m' e' = X at *
    generalize val m1 (e + s) = Y at *
    generalize val m e = Z at *
    generalize 1 - (n : ℚ) * eps = q at *
    generalize 1 - ((n + 1 : Nat) : ℚ) * eps = q' at *
    generalize (10 : ℚ) ^ n = T at *
    constructor
    · calc X * q' ≤ X * (q * (1 - eps)) := mul_le_mul_of_nonneg_left hne hv.le
        _ = (X * q) * (1 - eps) := by ring
        _ ≤ Y * T * (1 - eps) := mul_le_mul_of_nonneg_right b1 h1e
        _ = (Y * (1 - eps)) * T := by ring
        _ ≤ 10 * Z * T := mul_le_mul_of_nonneg_right c1 ht.le
        _ = Z * (T * 10) := by ring
    · have h5 : 10 * Z * (1 - eps) ≤ Y := by
        calc 10 * Z * (1 - eps) ≤ Y * (1 + eps) * (1 - eps) := mul_le_mul_of_nonneg_right c2 h1e
          _ = Y - Y * (eps * eps) := by ring
          _ ≤ Y := by have : 0 ≤ Y * (eps * eps) := by positivity
                      linarith
      calc Z * (T * 10) * q' ≤ Z * (T * 10) * (q * (1 - eps)) := mul_le_mul_of_nonneg_left hne (by positivity)
        _ = (10 * Z * (1 - eps)) * (T * q) := by ring
        _ ≤ Y * (T * q) := mul_le_mul_of_nonneg_right h5 (mul_nonneg ht.le hnn)
        _ = Y * T * q := by ring
        _ ≤ X := b2

theorem half_le (n : Nat) (h : n ≤ 400) : 1 / 2 ≤ 1 - (n : ℚ) * eps ∧ 1 - 400 * eps ≤ 1 - (n : ℚ) * eps := by
  have : (n : ℚ) ≤ 400 := by exact_mod_cast h
  unfold eps; constructor <;> linarith

/-- After the decimal exponent is applied: close to the number, or far beyond the range of doubles with it. -/
theorem applyExponent_spec (m : Nat) (e dexp : Int) (hm : Norm m) (h0 : 0 ≤ e) (h1 : e ≤ 61) :
    ∃ (m' : Nat) (e' : Int), applyExponent m e dexp = some (m', e') ∧ Norm m' ∧
      ((val m' e' * (1 - 400 * eps) ≤ val m e * 10 ^ dexp ∧ val m e * 10 ^ dexp * (1 - 400 * eps) ≤ val m' e') ∨
       (e' ≤ -1139 ∧ val m e * 10 ^ dexp ≤ 2 ^ (-1100 : Int)) ∨ (1200 ≤ e' ∧ 2 ^ (1100 : Int) ≤ val m e * 10 ^ dexp)) := by
  have hne : m ≠ 0 := by have := hm.1; omega
  have hv := val_pos e hm
  unfold applyExponent
  simp only [if_neg hne]
  by_cases hd : dexp < 0
  · rw [if_pos hd]
    obtain ⟨n, hn, hdn⟩ : ∃ n : Nat, (-dexp).toNat = n ∧ dexp = -(n : Int) := ⟨_, rfl, by omega⟩
    rw [hn]
    obtain ⟨m', e', k1, k2, k3, k4⟩ := divLoop_run n m e hm
    refine ⟨m', e', k1, k2, ?_⟩
    have ht : (0 : ℚ) < 10 ^ n := by positivity
    have hW : val m e * 10 ^ dexp = val m e / 10 ^ n := by rw [hdn, zpow_neg, zpow_natCast]; rfl
    rw [hW]
    by_cases hn4 : n ≤ 400
    · left
      obtain ⟨b1, b2⟩ := k4 hn4
      obtain ⟨_, hh⟩ := half_le n hn4
      have hv' := val_pos e' k2
      constructor
      · rw [le_div_iff₀ ht]
        calc val m' e' * (1 - 400 * eps) * 10 ^ n = (val m' e' * 10 ^ n) * (1 - 400 * eps) := by ring
          _ ≤ (val m' e' * 10 ^ n) * (1 - n * eps) := mul_le_mul_of_nonneg_left hh (by positivity)
          _ ≤ val m e := b1
      · rw [div_mul_eq_mul_div, div_le_iff₀ ht]
        exact le_trans (mul_le_mul_of_nonneg_left hh hv.le) b2
    · right; left
      refine ⟨by omega, ?_⟩
      obtain ⟨m4, e4, _, j2, j3, j4⟩ := divLoop_run 400 m e hm
      obtain ⟨_, b2⟩ := j4 (le_refl _)
      obtain ⟨hh, _⟩ := half_le 400 (le_refl _)
      have hlt := val_lt e4 j2
      have h4 : (0 : ℚ) < 10 ^ 400 := by positivity
      have hp : (10 : ℚ) ^ 400 ≤ 10 ^ n := pow_le_pow_right₀ (by norm_num) (by omega)
      have hz : (2 : ℚ) ^ (e4 + 1) ≤ 2 ^ (-1101 : Int) := zpow_le_zpow_right₀ (by norm_num) (by push_cast at j3; omega)
      have hzz : (2 : ℚ) ^ (-1100 : Int) = 2 * 2 ^ (-1101 : Int) := by
        rw [show (-1100 : Int) = 1 + (-1101) by norm_num, zpow_add₀ (by norm_num), zpow_one]
      rw [hzz, div_le_iff₀ ht]
      have hpos := two_zpow_pos (-1101)
      generalize (2 : ℚ) ^ (-1101 : Int) = u at *
      generalize (1 - ((400 : Nat) : ℚ) * eps) = q at *
      generalize (10 : ℚ) ^ 400 = t at *
      have b3 : val m e * (1 / 2) ≤ u * t := by
        calc val m e * (1 / 2) ≤ val m e * q := mul_le_mul_of_nonneg_left hh hv.le
          _ ≤ val m4 e4 * t := b2
          _ ≤ u * t := mul_le_mul_of_nonneg_right (by linarith) h4.le
      have b4 : u * t ≤ u * 10 ^ n := mul_le_mul_of_nonneg_left hp hpos.le
      linarith
  · rw [if_neg hd]
    obtain ⟨n, hn, hdn⟩ : ∃ n : Nat, dexp.toNat = n ∧ dexp = (n : Int) := ⟨_, rfl, by omega⟩
    rw [hn]
    obtain ⟨m', e', k1, k2, k3, k4⟩ := mulLoop_run n m e hm
    refine ⟨m', e', by rw [k1], k2, ?_⟩
    have ht : (0 : ℚ) < 10 ^ n := by positivity
    have hW : val m e * 10 ^ dexp = val m e * 10 ^ n := by rw [hdn, zpow_natCast]
    rw [hW]
    by_cases hn4 : n ≤ 400
    · left
      obtain ⟨b1, b2⟩ := k4 hn4
      obtain ⟨_, hh⟩ := half_le n hn4
      have hv' := val_pos e' k2
      exact ⟨le_trans (mul_le_mul_of_nonneg_left hh hv'.le) b1, le_trans (mul_le_mul_of_nonneg_left hh (by positivity)) b2⟩
    · right; right
      refine ⟨by omega, ?_⟩
      have hle : (1 : ℚ) ≤ val m e := by
        refine le_trans ?_ (le_val e hm)
        exact one_le_zpow₀ (by norm_num) h0
      have hp : (10 : ℚ) ^ 400 ≤ 10 ^ n := pow_le_pow_right₀ (by norm_num) (by omega)
      have h8 : (2 : ℚ) ^ (1100 : Int) ≤ 10 ^ 400 := by
        have : (2 : ℚ) ^ (1100 : Int) = 2 ^ 1100 := by rw [← zpow_natCast]; rfl
        rw [this]
        calc (2 : ℚ) ^ 1100 ≤ 2 ^ (3 * 400) := pow_le_pow_right₀ (by norm_num) (by norm_num)
          _ = (2 ^ 3) ^ 400 := by rw [pow_mul]
          _ ≤ 10 ^ 400 := pow_le_pow_left₀ (by norm_num) (by norm_num) 400
      calc (2 : ℚ) ^ (1100 : Int) ≤ 10 ^ n := le_trans h8 hp
        _ = 1 * 10 ^ n := by ring
        _ ≤ val m e * 10 ^ n := mul_le_mul_of_nonneg_right hle ht.le

/-- Relative error before the last rounding, in units of 2^-64. -/
def near (v w : ℚ) : Prop := v * (1 - 914 * eps) ≤ w ∧ w ≤ v * (1 + 914 * eps)

/-- The literal and the mantissa with the exponent which stand for it before the last rounding. -/
theorem parseDouble_near (l : FloatLit) (hl : l.WF) (h : -324 ≤ l.written ∧ l.written ≤ 308) (h0 : l.number ≠ 0) :
    ∃ (m : Nat) (e : Int), parseDouble l.text = assemble l.negative m e ∧ Norm m ∧
      (near (val m e) l.value ∨ (e ≤ -1139 ∧ 0 < l.value ∧ l.value ≤ 2 ^ (-1099 : Int)) ∨ (1200 ≤ e ∧ 2 ^ (1099 : Int) ≤ l.value)) := by
  obtain ⟨A, e, j, h1, h2, h3, h4, h5, h6⟩ := parseDouble_digits l hl h h0
  have hN : Norm (A * 2 ^ (63 - e)) := by
    refine ⟨?_, ?_⟩
    · calc 2 ^ 63 = 2 ^ e * 2 ^ (63 - e) := by rw [← Nat.pow_add]; congr 1; omega
        _ ≤ A * 2 ^ (63 - e) := Nat.mul_le_mul_right _ h3
    · calc A * 2 ^ (63 - e) < 2 ^ (e + 1) * 2 ^ (63 - e) := Nat.mul_lt_mul_of_pos_right h4 (Nat.pow_pos (by omega))
        _ = 2 ^ 64 := by rw [← Nat.pow_add]; congr 1; omega
  have hA : val (A * 2 ^ (63 - e)) e = A := by
    unfold val
    push_cast
    rw [mul_assoc, ← zpow_natCast, ← zpow_add₀ (by norm_num), show (((63 - e : Nat) : Int) + ((e : Int) - 63)) = 0 by omega, zpow_zero, mul_one]
  obtain ⟨m', e', k1, k2, k3⟩ := applyExponent_spec _ (e : Int) (l.scale + j) hN (by omega) (by omega)
  refine ⟨m', e', ?_, k2, ?_⟩
  · rw [h1]; unfold finishDouble; rw [k1]
  · rw [hA] at k3
    have hS : (0 : ℚ) < 10 ^ l.scale := zpow_pos (by norm_num) _
    have hW : (A : ℚ) * 10 ^ (l.scale + (j : Int)) = (A * 10 ^ j) * 10 ^ l.scale := by
      rw [zpow_add₀ (by norm_num), zpow_natCast]; ring
    rw [hW] at k3
    have g5 : (l.number : ℚ) * 2 ^ 55 ≤ A * 10 ^ j * (2 ^ 55 + 1) := by exact_mod_cast h5
    have g6 : (A : ℚ) * 10 ^ j * (2 ^ 55 - 1) ≤ l.number * 2 ^ 55 := by
      have : ((A * 10 ^ j * (2 ^ 55 - 1) : Nat) : ℚ) ≤ ((l.number * 2 ^ 55 : Nat) : ℚ) := by exact_mod_cast h6
      rw [Nat.cast_mul _ (2 ^ 55 - 1), Nat.cast_sub (by norm_num)] at this
      push_cast at this
      exact this
    have hnum : (0 : ℚ) < l.number := by exact_mod_cast Nat.pos_of_ne_zero h0
    have hval : 0 < l.value := mul_pos hnum hS
    have v1 : l.value ≤ (A * 10 ^ j) * 10 ^ l.scale * (1 + 512 * eps) := by
      unfold FloatLit.value
      have : (l.number : ℚ) ≤ A * 10 ^ j * (1 + 512 * eps) := by unfold eps; linarith
      calc (l.number : ℚ) * 10 ^ l.scale ≤ A * 10 ^ j * (1 + 512 * eps) * 10 ^ l.scale := mul_le_mul_of_nonneg_right this hS.le
        _ = _ := by ring
    have v2 : (A * 10 ^ j) * 10 ^ l.scale * (1 - 512 * eps) ≤ l.value := by
      unfold FloatLit.value
      have : (A : ℚ) * 10 ^ j * (1 - 512 * eps) ≤ l.number := by unfold eps; linarith
      calc _ = A * 10 ^ j * (1 - 512 * eps) * 10 ^ l.scale := by ring
        _ ≤ _ := mul_le_mul_of_nonneg_right this hS.le
    have hV := val_pos e' k2
    generalize (A : ℚ) * 10 ^ j * 10 ^ l.scale = W at *
    generalize l.value = w at *
    rcases k3 with ⟨a1, a2⟩ | ⟨a1, a2⟩ | ⟨a1, a2⟩
    · left
      generalize val m' e' = V at *
      have hWV : W ≤ V * (1 + 401 * eps) := by
        have : W * (1 - 400 * eps) * (1 + 401 * eps) ≤ V * (1 + 401 * eps) :=
          mul_le_mul_of_nonneg_right a2 (by unfold eps; norm_num)
        have hWp : 0 ≤ W := by
          have : 0 ≤ V * (1 - 400 * eps) := mul_nonneg hV.le (by unfold eps; norm_num)
          linarith
        have h7 : (1 : ℚ) ≤ (1 - 400 * eps) * (1 + 401 * eps) := by unfold eps; norm_num
        calc W = W * 1 := by ring
          _ ≤ W * ((1 - 400 * eps) * (1 + 401 * eps)) := mul_le_mul_of_nonneg_left h7 hWp
          _ = W * (1 - 400 * eps) * (1 + 401 * eps) := by ring
          _ ≤ _ := this
      constructor
      · calc V * (1 - 914 * eps) ≤ V * ((1 - 400 * eps) * (1 - 512 * eps)) :=
              mul_le_mul_of_nonneg_left (by unfold eps; norm_num) hV.le
          _ = (V * (1 - 400 * eps)) * (1 - 512 * eps) := by ring
          _ ≤ W * (1 - 512 * eps) := mul_le_mul_of_nonneg_right a1 (by unfold eps; norm_num)
          _ ≤ w := v2
      · calc w ≤ W * (1 + 512 * eps) := v1
          _ ≤ (V * (1 + 401 * eps)) * (1 + 512 * eps) := mul_le_mul_of_nonneg_right hWV (by unfold eps; norm_num)
          _ = V * ((1 + 401 * eps) * (1 + 512 * eps)) := by ring
          _ ≤ V * (1 + 914 * eps) := mul_le_mul_of_nonneg_left (by unfold eps; norm_num) hV.le
    · right; left
      refine ⟨a1, hval, ?_⟩
      have hzz : (2 : ℚ) ^ (-1099 : Int) = 2 * 2 ^ (-1100 : Int) := by
        rw [show (-1099 : Int) = 1 + (-1100) by norm_num, zpow_add₀ (by norm_num), zpow_one]
      rw [hzz]
      have hpos := two_zpow_pos (-1100)
      generalize (2 : ℚ) ^ (-1100 : Int) = u at *
      calc w ≤ W * (1 + 512 * eps) := v1
        _ ≤ u * (1 + 512 * eps) := mul_le_mul_of_nonneg_right a2 (by unfold eps; norm_num)
        _ ≤ u * 2 := mul_le_mul_of_nonneg_left (by unfold eps; norm_num) hpos.le
        _ = 2 * u := by ring
    · right; right
      refine ⟨a1, ?_⟩
      have hzz : (2 : ℚ) ^ (1100 : Int) = 2 * 2 ^ (1099 : Int) := by
        rw [show (1100 : Int) = 1 + 1099 by norm_num, zpow_add₀ (by norm_num), zpow_one]
      rw [hzz] at a2
      have hpos := two_zpow_pos 1099
      generalize (2 : ℚ) ^ (1099 : Int) = u at *
      have hWp : 0 ≤ W := le_trans (by positivity) a2
      calc u = (2 * u) * (1 / 2) := by ring
        _ ≤ W * (1 / 2) := mul_le_mul_of_nonneg_right a2 (by norm_num)
        _ ≤ W * (1 - 512 * eps) := mul_le_mul_of_nonneg_left (by unfold eps; norm_num) hWp
        _ ≤ w := v2

end Verif.Misc
