import Verif.Misc.Rng
/-! C09: random integers from a range. -/
namespace Verif.Misc
open Verif.Vm

/-- Exactly one number in any window of `m` consecutive numbers has a given residue. -/
theorem window_count (m x : Nat) (hx : x < m) : ∀ a,
    (List.range' a m).countP (fun r => r % m == x) = 1 := by
  intro a
  induction a with
  | zero =>
    have : ∀ n, n ≤ m → (List.range' 0 n).countP (fun r => r % m == x) = if x < n then 1 else 0 := by
      intro n
      induction n with
      | zero => intro _; rfl
      | succ n ih =>
        intro hn
        rw [List.range'_concat, List.countP_append, ih (by omega)]
        simp only [Nat.zero_add, Nat.one_mul, List.countP_cons, List.countP_nil]
        rw [Nat.mod_eq_of_lt (a := n) (by omega)]
        by_cases h2 : n = x
        · subst h2; simp
        · have hb : (n == x) = false := by simp [h2]
          rw [hb]
          by_cases h1 : x < n
          · simp [h1]; omega
          · simp [h1]; omega
    rw [this m (Nat.le_refl _), if_pos hx]
  | succ a ih =>
    have e1 : List.range' a (m + 1) = a :: List.range' (a + 1) m := by rw [List.range'_succ]
    have e2 : List.range' a (m + 1) = List.range' a m ++ [a + m] := by
      rw [List.range'_concat]; simp
    have := congrArg (List.countP (fun r => r % m == x)) (e1.symm.trans e2)
    rw [List.countP_append, ih, List.countP_cons, List.countP_cons] at this
    simp only [List.countP_nil, Nat.add_mod_right] at this
    omega

theorem count_accepted (m x t : Nat) (hx : x < m) : ∀ q,
    (List.range (t + q * m)).countP (fun r => decide (t ≤ r) && (r % m == x)) = q := by
  intro q
  induction q with
  | zero =>
    rw [Nat.zero_mul, Nat.add_zero, List.countP_eq_zero]
    intro r hr
    simp at hr ⊢; omega
  | succ q ih =>
    rw [show t + (q + 1) * m = (t + q * m) + m by rw [Nat.succ_mul]; omega]
    rw [List.range_eq_range', ← List.range'_append_1, ← List.range_eq_range', List.countP_append, ih]
    rw [Nat.zero_add]
    have hw := window_count m x hx (t + q * m)
    have : (List.range' (t + q * m) m).countP (fun r => decide (t ≤ r) && (r % m == x)) =
        (List.range' (t + q * m) m).countP (fun r => r % m == x) := by
      apply List.countP_congr
      intro r hr
      have := (List.mem_range'_1.mp hr).1
      simp; omega
    omega

theorem threshold_eq (bits m : Nat) (h0 : 0 < m) (h : m < 2 ^ bits) : threshold bits m = 2 ^ bits % m := by
  unfold threshold
  rw [show 2 ^ bits - 1 - m + 1 = 2 ^ bits - m by omega, Nat.mod_eq_of_lt (a := 2 ^ bits - m) (by omega)]
  conv => rhs; rw [show 2 ^ bits = (2 ^ bits - m) + m by omega]
  rw [Nat.add_mod_right]

/-- A generator whose first draws carry the raw word `w` (32 low bits from the first generator). -/
def wordRaw (w : Nat) : Raw := ⟨fun _ => BitVec.ofNat 32 w, fun _ => BitVec.ofNat 32 (w / 2 ^ 32)⟩

/-- Result of `random_range` if the very first raw word is accepted; `none` if it is rejected. -/
def firstDraw (maxValue w : Nat) : Option Nat := (randomRange (wordRaw w) 1 maxValue ⟨0, 0⟩).map Prod.fst

/-- How many raw words of the given width lead to result `x`. -/
def Spec.hits (bits maxValue x : Nat) : Nat :=
  (List.range (2 ^ bits)).countP (fun w => firstDraw maxValue w == some x)

/-- Raw word width used for a range. -/
def Spec.width (maxValue : Nat) : Nat := if maxValue < 2 ^ 32 then 32 else 64

theorem wordRaw_64 (w : Nat) (h : w < 18446744073709551616) : (rngRandom (wordRaw w) ⟨0, 0⟩).1 = w := by
  simp [rngRandom, pcgNext, wordRaw]; omega

theorem wordRaw_32 (w : Nat) (h : w < 4294967296) : (pcgNext (wordRaw w) false ⟨0, 0⟩).1 = w := by
  simp [pcgNext, wordRaw]; omega

theorem firstDraw_eq (maxValue w : Nat) (hm : maxValue < 2 ^ 64) (hw : w < 2 ^ Spec.width maxValue) :
    firstDraw maxValue w =
      if 2 ^ Spec.width maxValue % (maxValue + 1) ≤ w then some (w % (maxValue + 1)) else none := by
  unfold firstDraw randomRange
  by_cases h1 : maxValue = 0xFFFFFFFFFFFFFFFF
  · subst h1
    have : Spec.width 0xFFFFFFFFFFFFFFFF = 64 := by decide
    rw [this] at hw ⊢
    rw [if_pos rfl]
    simp only [Option.map_some]
    rw [wordRaw_64 w hw, if_pos (by omega)]
    exact congrArg some (by omega)
  · rw [if_neg h1]
    by_cases h2 : maxValue = 0xFFFFFFFF
    · subst h2
      have : Spec.width 0xFFFFFFFF = 32 := by decide
      rw [this] at hw ⊢
      rw [if_pos rfl]
      simp only [Option.map_some]
      rw [wordRaw_32 w hw, if_pos (by omega)]
      exact congrArg some (by omega)
    · rw [if_neg h2]
      by_cases h3 : maxValue < 0xFFFFFFFF
      · have : Spec.width maxValue = 32 := by unfold Spec.width; rw [if_pos (by omega)]
        rw [this] at hw ⊢
        rw [if_pos h3, threshold_eq _ _ (by omega) (by omega)]
        unfold loop32
        have hr := wordRaw_32 w hw
        generalize pcgNext (wordRaw w) false ⟨0, 0⟩ = p at hr
        obtain ⟨r, s⟩ := p
        simp only at hr
        subst hr
        simp only [ge_iff_le, loop32]
        split <;> rfl
      · have : Spec.width maxValue = 64 := by unfold Spec.width; rw [if_neg (by omega)]
        rw [this] at hw ⊢
        rw [if_neg h3, threshold_eq _ _ (by omega) (by omega)]
        unfold loop64
        have hr := wordRaw_64 w hw
        generalize rngRandom (wordRaw w) ⟨0, 0⟩ = p at hr
        obtain ⟨r, s⟩ := p
        simp only at hr
        subst hr
        simp only [ge_iff_le, loop64]
        split <;> rfl

/-- **C09 (no bias).** Every result `x ≤ max` is produced by the same number of raw words,
`2^width / (max + 1)`, and fewer than half of the raw words are rejected. -/
theorem C09_unbiased (maxValue x : Nat) (hm : maxValue < 2 ^ 64) (hx : x ≤ maxValue) :
    Spec.hits (Spec.width maxValue) maxValue x = 2 ^ Spec.width maxValue / (maxValue + 1) ∧
    2 * (List.range (2 ^ Spec.width maxValue)).countP (fun w => firstDraw maxValue w == none)
      < 2 ^ Spec.width maxValue := by
  have hle : maxValue + 1 ≤ 2 ^ Spec.width maxValue := by
    unfold Spec.width; split <;> omega
  constructor
  · unfold Spec.hits
    have hdm := Nat.div_add_mod (2 ^ Spec.width maxValue) (maxValue + 1)
    have := count_accepted (maxValue + 1) x (2 ^ Spec.width maxValue % (maxValue + 1)) (by omega)
      (2 ^ Spec.width maxValue / (maxValue + 1))
    rw [show 2 ^ Spec.width maxValue % (maxValue + 1) +
        2 ^ Spec.width maxValue / (maxValue + 1) * (maxValue + 1) = 2 ^ Spec.width maxValue by
      rw [Nat.mul_comm]; omega] at this
    rw [← this]
    apply List.countP_congr
    intro w hw
    rw [firstDraw_eq _ _ hm (List.mem_range.mp hw)]
    split <;> simp <;> omega
  · have hcount : ∀ (t N : Nat), t ≤ N →
        (List.range N).countP (fun w => decide (w < t)) = t := by
      intro t N
      induction N with
      | zero => intro h; simp; omega
      | succ N ih =>
        intro h
        rw [List.range_succ, List.countP_append]
        by_cases h' : t ≤ N
        · rw [ih h']; simp; omega
        · have ht : t = N + 1 := by omega
          have : (List.range N).countP (fun w => decide (w < t)) = N := by
            have := List.countP_eq_length (p := fun w => decide (w < t)) (l := List.range N)
            rw [this.mpr (by intro a ha; simp at ha ⊢; omega)]; simp
          rw [this]; simp [ht]
    have hmod := Nat.mod_lt (2 ^ Spec.width maxValue) (show 0 < maxValue + 1 by omega)
    have hdm := Nat.div_add_mod (2 ^ Spec.width maxValue) (maxValue + 1)
    have hq : 1 ≤ 2 ^ Spec.width maxValue / (maxValue + 1) := (Nat.one_le_div_iff (by omega)).mpr hle
    have hmul : (maxValue + 1) * 1 ≤ (maxValue + 1) * (2 ^ Spec.width maxValue / (maxValue + 1)) :=
      Nat.mul_le_mul_left _ hq
    have e := hcount (2 ^ Spec.width maxValue % (maxValue + 1)) (2 ^ Spec.width maxValue) (by omega)
    have : (List.range (2 ^ Spec.width maxValue)).countP (fun w => firstDraw maxValue w == none) =
        2 ^ Spec.width maxValue % (maxValue + 1) := by
      rw [← e]
      apply List.countP_congr
      intro w hw
      rw [firstDraw_eq _ _ hm (List.mem_range.mp hw)]
      split <;> simp <;> omega
    rw [this]; omega

theorem loop32_le (raw : Raw) (mask t : Nat) (h : 0 < mask) : ∀ fuel sel s r s',
    loop32 raw mask t fuel sel s = some (r, s') → r < mask := by
  intro fuel
  induction fuel with
  | zero => intro sel s r s' h; cases h
  | succ n ih =>
    intro sel s r s' he
    simp only [loop32] at he
    split at he
    · cases he; exact Nat.mod_lt _ h
    · exact ih _ _ _ _ he

theorem loop64_le (raw : Raw) (mask t : Nat) (h : 0 < mask) : ∀ fuel s r s',
    loop64 raw mask t fuel s = some (r, s') → r < mask := by
  intro fuel
  induction fuel with
  | zero => intro s r s' h; cases h
  | succ n ih =>
    intro s r s' he
    simp only [loop64] at he
    split at he
    · cases he; exact Nat.mod_lt _ h
    · exact ih _ _ _ he

theorem randomRange_le (raw : Raw) (fuel maxValue : Nat) (s : RngPos) (r : Nat) (s' : RngPos)
    (h : randomRange raw fuel maxValue s = some (r, s')) : r ≤ maxValue := by
  unfold randomRange at h
  split at h
  · rename_i hm
    cases h
    have a := (raw.out0 s.p0).isLt
    have b := (raw.out1 s.p1).isLt
    simp [pcgNext]; omega
  · split at h
    · have a := (raw.out0 s.p0).isLt
      simp [pcgNext] at h
      omega
    · split at h
      · exact Nat.le_of_lt_succ (loop32_le _ _ _ (by omega) _ _ _ _ _ h)
      · exact Nat.le_of_lt_succ (loop64_le _ _ _ (by omega) _ _ _ _ h)

/-- **C09 (range), partial.** For ranges narrower than 2^63, whatever the raw outputs are and however many are
rejected, the result is within `[min, max]` and no undefined operation is executed; an inverted range raises.
Missing: wider ranges, where the code overflows a signed subtraction (`C09_wide_range_violated`). -/
theorem C09_in_range_partial (raw : Raw) (fuel : Nat) (minV maxV : I64) (s : RngPos)
    (hw : maxV.toInt - minV.toInt < 2 ^ 63) :
    (minV.toInt > maxV.toInt → randInteger raw fuel minV maxV s = .raise) ∧
    (minV.toInt ≤ maxV.toInt → randInteger raw fuel minV maxV s = .pending ∨
      ∃ v, randInteger raw fuel minV maxV s = .val v ∧ minV.toInt ≤ v.toInt ∧ v.toInt ≤ maxV.toInt) := by
  constructor
  · intro h; unfold randInteger; rw [if_pos h]
  · intro h
    unfold randInteger
    rw [if_neg (by omega)]
    by_cases he : minV = maxV
    · subst he
      rw [if_pos rfl]; right; exact ⟨_, rfl, by omega, by omega⟩
    · rw [if_neg he]
      have hsub : (maxV - minV).toInt = maxV.toInt - minV.toInt := by
        rw [BitVec.toInt_sub, Int.bmod_eq_of_le (by omega) (by omega)]
      have hc : cSub maxV minV = .val (maxV - minV) := by
        unfold cSub; rw [if_pos (by omega)]
      rw [hc]
      simp only
      have hn : ((maxV - minV).toNat : Int) = maxV.toInt - minV.toInt := by
        rw [← hsub, BitVec.toInt_eq_toNat_of_msb]
        rw [BitVec.msb_eq_toInt, hsub]; simp; omega
      cases hr : randomRange raw fuel (maxV - minV).toNat s with
      | none => left; rfl
      | some p =>
        obtain ⟨r, s'⟩ := p
        have hle := randomRange_le _ _ _ _ _ _ hr
        have h1 := BitVec.le_toInt minV
        have h2 := BitVec.toInt_lt (x := maxV)
        have hri : (BitVec.ofNat 64 r).toInt = r := by
          rw [BitVec.toInt_eq_toNat_cond, BitVec.toNat_ofNat, Nat.mod_eq_of_lt (by omega), if_pos (by omega)]
        have hadd : (minV + BitVec.ofNat 64 r).toInt = minV.toInt + r := by
          rw [BitVec.toInt_add, hri, Int.bmod_eq_of_le (by omega) (by omega)]
        have hca : cAdd minV (BitVec.ofNat 64 r) = .val (minV + BitVec.ofNat 64 r) := by
          unfold cAdd; rw [if_pos (by omega)]
        simp only [hca]
        right
        exact ⟨_, rfl, by omega, by omega⟩

/-- **C09 violated** for wide ranges: `max_value - min_value` overflows, e.g. the full integer range. -/
theorem C09_wide_range_violated (raw : Raw) (fuel : Nat) (s : RngPos) :
    randInteger raw fuel intMin (BitVec.ofInt 64 (2 ^ 63 - 1)) s = .ub := by
  unfold randInteger
  rw [if_neg (by decide), if_neg (by decide)]
  have : cSub (BitVec.ofInt 64 (2 ^ 63 - 1)) intMin = .ub := by decide
  rw [this]

/-- Non-vacuity: a range of ten values rejects raw words below 2^32 mod 10 = 6. -/
example : firstDraw 9 3 = none ∧ firstDraw 9 4294967295 = some 5 ∧
    randInteger (wordRaw 17) 1 (-3) 6 ⟨0, 0⟩ = .val 4 := by
  refine ⟨?_, ?_, ?_⟩ <;> decide +kernel

end Verif.Misc
