import Verif.Misc.FloatRound
/-
The double which `kos_parse_double` returns, as an integer multiple of a power of two.
-/
namespace Verif.Misc
open Spec

/-- What is known about the multiple of `2^U` to which the number `w` is rounded. -/
def Rounded (w : ℚ) (M : Nat) (U : Int) : Prop :=
  -1074 ≤ U ∧ U ≤ 971 ∧ M ≤ 2 ^ 53 ∧ |(M : ℚ) * 2 ^ U - w| < 1939 / 2048 * 2 ^ U ∧
  (U ≠ -1074 → 2 ^ 52 ≤ M) ∧ (M = 2 ^ 52 → U ≠ -1074 → (M : ℚ) * 2 ^ U - 915 / 2048 * 2 ^ U < w)

theorem rounded_lt {w : ℚ} {M : Nat} {U : Int} (h : Rounded w M U) : |(M : ℚ) * 2 ^ U - w| < 2 ^ U := by
  have := h.2.2.2.1
  have := two_zpow_pos U
  linarith

/-- How the multiple is stored. -/
def Stored (bits M : Nat) (U : Int) : Prop :=
  (expField bits < 2047 ∧ magnitude bits = M * 2 ^ U ∧ (2 : ℚ) ^ U ≤ ulp bits) ∨
  (M = 2 ^ 52 ∧ U = -1074 ∧ expField bits = 0 ∧ fracField bits = 0) ∨
  (M = 2 ^ 53 ∧ U = 971 ∧ expField bits = 2047 ∧ fracField bits = 0)

theorem pow_split (a b c : Int) (k : Nat) (h : a = b + k) (hc : c = b) : (2 : ℚ) ^ a = 2 ^ k * 2 ^ c := by
  subst hc; rw [h, zpow_add₀ (by norm_num), zpow_natCast, mul_comm]

theorem near_abs {V w t : ℚ} {c : ℚ} (h : near V w) (hV : eps * V ≤ c * t) : |w - V| ≤ 914 * c * t := by
  obtain ⟨h1, h2⟩ := h
  rw [abs_le]
  constructor <;> nlinarith

theorem normal_rounded (m M : Nat) (e : Int) (w : ℚ) (hm : Norm m) (h1 : -1022 ≤ e) (h2 : e ≤ 1023) (hn : near (val m e) w)
    (hM : 2 ^ 52 ≤ M ∧ M ≤ 2 ^ 53) (hr : M * 2 ^ 11 ≤ m + 2 ^ 10 ∧ m ≤ M * 2 ^ 11 + 2 ^ 10) : Rounded w M (e - 52) := by
  have hU : (2 : ℚ) ^ (e - 52) = 2 ^ 11 * 2 ^ (e - 63) := pow_split _ (e - 63) _ 11 (by push_cast; ring) rfl
  have ht := two_zpow_pos (e - 63)
  have hm2 : (m : ℚ) < 2 ^ 64 := by exact_mod_cast hm.2
  have hm1 : (2 : ℚ) ^ 63 ≤ m := by exact_mod_cast hm.1
  have hr1 : (M : ℚ) * 2 ^ 11 ≤ m + 2 ^ 10 := by exact_mod_cast hr.1
  have hr2 : (m : ℚ) ≤ M * 2 ^ 11 + 2 ^ 10 := by exact_mod_cast hr.2
  have hc : eps * val m e ≤ 1 * 2 ^ (e - 63) := by
    unfold val
    generalize (2 : ℚ) ^ (e - 63) = t at *
    have : eps * m ≤ 1 := by unfold eps; linarith
    calc eps * (m * t) = (eps * m) * t := by ring
      _ ≤ 1 * t := mul_le_mul_of_nonneg_right this ht.le
  have hd := near_abs hn hc
  rw [abs_le] at hd
  unfold Rounded
  rw [hU]
  unfold val at hd
  generalize (2 : ℚ) ^ (e - 63) = t at *
  refine ⟨by omega, by omega, hM.2, ?_, fun _ => hM.1, ?_⟩
  · rw [abs_lt]
    constructor <;> nlinarith
  · intro hM2 _
    have : (M : ℚ) * 2 ^ 11 ≤ m := by rw [hM2]; push_cast; linarith
    nlinarith

theorem subnormal_rounded (m M m' : Nat) (e : Int) (w : ℚ) (hm : Norm m) (h1 : e ≤ -1023)
    (hn : near (val m e) w ∨ (e ≤ -1139 ∧ 0 < w ∧ w ≤ 2 ^ (-1099 : Int)))
    (hm' : m' = m / 2 ^ ((-1023 - e).toNat + 1)) (hM : M ≤ 2 ^ 52)
    (hr : M * 2 ^ 11 ≤ m' + 2 ^ 10 ∧ m' ≤ M * 2 ^ 11 + 2 ^ 10) : Rounded w M (-1074) := by
  have hU : (2 : ℚ) ^ (-1074 : Int) = 2 ^ 11 * 2 ^ (-1085 : Int) := pow_split _ (-1085) _ 11 (by norm_num) rfl
  have ht := two_zpow_pos (-1085)
  refine ⟨by omega, by omega, by omega, ?_, fun h => absurd rfl h, fun _ h => absurd rfl h⟩
  obtain ⟨k, hk, hke⟩ : ∃ k : Nat, (-1023 - e).toNat + 1 = k ∧ e - 63 = -1085 - k := ⟨_, rfl, by omega⟩
  rw [hk] at hm'
  rcases hn with hn | ⟨he, hw0, hw1⟩
  · have hk0 : (0 : ℚ) < 2 ^ k := by positivity
    have hV : val m e = m / 2 ^ k * 2 ^ (-1085 : Int) := by
      unfold val
      rw [hke, zpow_sub₀ (by norm_num), zpow_natCast]; ring
    have hr1 : (M : ℚ) * 2 ^ 11 ≤ m' + 2 ^ 10 := by exact_mod_cast hr.1
    have hr2 : (m' : ℚ) ≤ M * 2 ^ 11 + 2 ^ 10 := by exact_mod_cast hr.2
    have hx1 : (m' : ℚ) ≤ m / 2 ^ k := by
      rw [le_div_iff₀ hk0, hm']
      have := Nat.div_mul_le_self m (2 ^ k)
      exact_mod_cast this
    have hx2 : (m : ℚ) / 2 ^ k < m' + 1 := by
      rw [div_lt_iff₀ hk0, hm']
      have := Nat.lt_mul_of_div_lt (Nat.lt_succ_self (m / 2 ^ k)) (Nat.two_pow_pos k)
      have this : m < (m / 2 ^ k + 1) * 2 ^ k := this
      exact_mod_cast this
    have hx3 : (m : ℚ) / 2 ^ k ≤ 2 ^ 63 := by
      rw [div_le_iff₀ hk0]
      have hm2 : (m : ℚ) ≤ 2 ^ 64 := by exact_mod_cast hm.2.le
      have hk1 : (2 : ℚ) ^ 1 ≤ 2 ^ k := pow_le_pow_right₀ (by norm_num) (by omega)
      linarith
    rw [hV] at hn
    generalize (m : ℚ) / 2 ^ k = x at *
    rw [hU]
    generalize (2 : ℚ) ^ (-1085 : Int) = t at *
    have hc : eps * (x * t) ≤ 1 / 2 * t := by
      have : eps * x ≤ 1 / 2 := by unfold eps; linarith
      calc eps * (x * t) = (eps * x) * t := by ring
        _ ≤ 1 / 2 * t := mul_le_mul_of_nonneg_right this ht.le
    have hd := near_abs hn hc
    rw [abs_le] at hd
    rw [abs_lt]
    constructor <;> nlinarith
  · have hm0 : m' = 0 := by
      rw [hm']
      apply Nat.div_eq_of_lt
      refine lt_of_lt_of_le hm.2 (Nat.pow_le_pow_right (by norm_num) (by omega))
    have hM0 : M = 0 := by omega
    rw [hM0]
    have h2 : (2 : ℚ) ^ (-1099 : Int) < 2 ^ (-1075 : Int) := zpow_lt_zpow_right₀ (by norm_num) (by norm_num)
    have h3 : (2 : ℚ) ^ (-1074 : Int) = 2 ^ 1 * 2 ^ (-1075 : Int) := pow_split _ (-1075) _ 1 (by norm_num) rfl
    have := two_zpow_pos (-1074)
    generalize (2 : ℚ) ^ (-1075 : Int) = v at *
    generalize (2 : ℚ) ^ (-1074 : Int) = u at *
    rw [abs_lt]
    constructor <;> push_cast <;> linarith

theorem magnitude_normal (bits M E : Nat) (U : Int) (h1 : expField bits = E) (h2 : fracField bits = M - 2 ^ 52) (hM : 2 ^ 52 ≤ M)
    (hE : E ≠ 0) (hU : (E : Int) - 1075 = U) : magnitude bits = M * 2 ^ U ∧ ulp bits = 2 ^ U := by
  have hu : ulp bits = 2 ^ U := by
    unfold ulp
    rw [h1, ← hU]
    congr 2
    have : 1 ≤ E := Nat.one_le_iff_ne_zero.2 hE
    have h : (1 : Int) ≤ (E : Int) := by exact_mod_cast this
    exact max_eq_left h
  refine ⟨?_, hu⟩
  unfold magnitude
  rw [h1, if_neg hE, hu, h2, Nat.cast_sub hM]
  congr 1
  push_cast
  ring

theorem magnitude_subnormal (bits M : Nat) (h1 : expField bits = 0) (h2 : fracField bits = M) :
    magnitude bits = M * 2 ^ (-1074 : Int) ∧ ulp bits = 2 ^ (-1074 : Int) := by
  have hu : ulp bits = 2 ^ (-1074 : Int) := by
    unfold ulp; rw [h1]; rfl
  refine ⟨?_, hu⟩
  unfold magnitude
  rw [h1, if_pos rfl, hu, h2]

/-- Every accepted literal is rounded to a multiple of a power of two, which is stored except in two places. -/
theorem parseDouble_rounded (l : FloatLit) (hl : l.WF) (bits : Nat) (h : parseDouble l.text = .ok bits) :
    bits < 2 ^ 64 ∧ signBit bits = l.negative ∧ ∃ M U, Rounded l.value M U ∧ Stored bits M U := by
  have hw : -324 ≤ l.written ∧ l.written ≤ 308 := by
    by_contra hc
    rw [parseDouble_exponent l hl hc] at h
    split at h <;> cases h
  by_cases h0 : l.number = 0
  · rw [parseDouble_zero l hl hw h0] at h
    obtain ⟨b, hb, hb1, hb2, hb3, hb4⟩ := assemble_zero l.negative
    rw [hb] at h
    cases h
    have hm := magnitude_subnormal bits 0 hb3 hb4
    refine ⟨hb1, hb2, 0, -1074, ?_, Or.inl ⟨by omega, hm.1, hm.2.ge⟩⟩
    refine ⟨by omega, by omega, by omega, ?_, fun h => absurd rfl h, fun _ h => absurd rfl h⟩
    have : l.value = 0 := by unfold FloatLit.value; rw [h0]; simp
    rw [this]
    have := two_zpow_pos (-1074)
    simp
  · obtain ⟨m, e, h1, hm, h3⟩ := parseDouble_near l hl hw h0
    rw [h1] at h
    by_cases he : e ≤ 1023
    · by_cases hlo : -1022 ≤ e
      · have hn : near (val m e) l.value := by
          rcases h3 with h3 | h3 | h3
          · exact h3
          · omega
          · omega
        obtain ⟨M, hM, hr, hf1, hf2⟩ := assemble_normal l.negative m e hm hlo he
        have hR := normal_rounded m M e l.value hm hlo he hn hM hr
        by_cases hlt : M < 2 ^ 53
        · obtain ⟨b, hb, hb1, hb2, hb3, hb4⟩ := hf1 hlt
          rw [hb] at h
          cases h
          have hmag := magnitude_normal bits M _ (e - 52) hb3 hb4 hM.1 (by omega) (by omega)
          exact ⟨hb1, hb2, M, e - 52, hR, Or.inl ⟨by omega, hmag.1, hmag.2.ge⟩⟩
        · have hMe : M = 2 ^ 53 := by omega
          obtain ⟨b, hb, hb1, hb2, hb3, hb4⟩ := hf2 hMe
          rw [hb] at h
          cases h
          refine ⟨hb1, hb2, M, e - 52, hR, ?_⟩
          by_cases h10 : e = 1023
          · exact Or.inr (Or.inr ⟨hMe, by omega, by omega, hb4⟩)
          · have hmag := magnitude_normal bits (2 ^ 52) _ (e - 51) hb3 (by rw [hb4, Nat.sub_self]) (le_refl _) (by omega) (by omega)
            have hp : (2 : ℚ) ^ (e - 51) = 2 ^ 1 * 2 ^ (e - 52) := pow_split _ (e - 52) _ 1 (by push_cast; ring) rfl
            refine Or.inl ⟨by omega, ?_, ?_⟩
            · rw [hmag.1, hp, hMe]; push_cast; ring
            · rw [hmag.2, hp]; have := two_zpow_pos (e - 52); linarith
      · have hn : near (val m e) l.value ∨ (e ≤ -1139 ∧ 0 < l.value ∧ l.value ≤ 2 ^ (-1099 : Int)) := by
          rcases h3 with h3 | h3 | h3
          · exact Or.inl h3
          · exact Or.inr h3
          · omega
        obtain ⟨M, m', hm', hM, hr, hf⟩ := assemble_subnormal l.negative m e hm (by omega)
        have hR := subnormal_rounded m M m' e l.value hm (by omega) hn hm' hM hr
        obtain ⟨b, hb, hb1, hb2, hb3, hb4⟩ := hf
        rw [hb] at h
        cases h
        refine ⟨hb1, hb2, M, -1074, hR, ?_⟩
        by_cases hlt : M = 2 ^ 52
        · exact Or.inr (Or.inl ⟨hlt, rfl, hb3, by rw [hb4, hlt]; exact Nat.mod_self _⟩)
        · have hmag := magnitude_subnormal bits M hb3 (by rw [hb4]; exact Nat.mod_eq_of_lt (by omega))
          exact Or.inl ⟨by omega, hmag.1, hmag.2.ge⟩
    · exfalso
      unfold assemble at h
      rw [if_pos (by omega)] at h
      cases h

/-- A finite double is a multiple of a power of two, with 53 bits. -/
theorem finite_multiple (d : Nat) (hd : expField d < 2047) :
    ∃ (F : Nat) (x : Int), F < 2 ^ 53 ∧ -1074 ≤ x ∧ magnitude d = F * 2 ^ x := by
  have hF : fracField d < 2 ^ 52 := Nat.mod_lt _ (by norm_num)
  by_cases h0 : expField d = 0
  · exact ⟨fracField d, -1074, by omega, by omega, (magnitude_subnormal d _ h0 rfl).1⟩
  · refine ⟨2 ^ 52 + fracField d, (expField d : Int) - 1075, by omega, by omega, ?_⟩
    exact (magnitude_normal d (2 ^ 52 + fracField d) _ _ rfl (by omega) (by omega) h0 rfl).1

/-- With 53 bits at most, a number which is beyond `(2^53 - 1) * 2^(U-1)` is a multiple of `2^U`. -/
theorem multiple_of (F : Nat) (x U : Int) (hF : F < 2 ^ 53) (h : U ≤ x ∨ ((2 : ℚ) ^ 53 - 1) * 2 ^ (U - 1) < F * 2 ^ x) :
    ∃ K : Nat, (F : ℚ) * 2 ^ x = K * 2 ^ U := by
  have hx : U ≤ x := by
    rcases h with h | h
    · exact h
    · by_contra hc
      have h1 : (2 : ℚ) ^ x ≤ 2 ^ (U - 1) := zpow_le_zpow_right₀ (by norm_num) (by omega)
      have h2 : (F : ℚ) ≤ 2 ^ 53 - 1 := by
        have : F ≤ 2 ^ 53 - 1 := by omega
        have : ((F : Nat) : ℚ) ≤ ((2 ^ 53 - 1 : Nat) : ℚ) := by exact_mod_cast this
        rw [Nat.cast_sub (by norm_num)] at this
        push_cast at this
        exact this
      have := mul_le_mul h2 h1 (two_zpow_pos _).le (by norm_num)
      linarith
  refine ⟨F * 2 ^ (x - U).toNat, ?_⟩
  push_cast
  rw [mul_assoc, ← zpow_natCast, ← zpow_add₀ (by norm_num)]
  congr 2
  omega

/-- No double lies between the number and the one to which it is rounded, nor at the number if they differ. -/
theorem rounded_faithful (w : ℚ) (M : Nat) (U : Int) (h : Rounded w M U) (d : Nat) (hd : expField d < 2047) :
    ¬ ((M : ℚ) * 2 ^ U < magnitude d ∧ magnitude d ≤ w) ∧ ¬ (w ≤ magnitude d ∧ magnitude d < (M : ℚ) * 2 ^ U) := by
  have h4 := rounded_lt h
  obtain ⟨h1, h2, h3, _, h5, h6⟩ := h
  obtain ⟨F, x, hF, hx, hm⟩ := finite_multiple d hd
  rw [abs_lt] at h4
  rw [hm]
  have hu := two_zpow_pos U
  have hhalf : (2 : ℚ) ^ U = 2 * 2 ^ (U - 1) := by
    have := pow_split U (U - 1) _ 1 (by push_cast; ring) rfl
    rw [this]; norm_num
  constructor
  · rintro ⟨a, b⟩
    obtain ⟨K, hK⟩ : ∃ K : Nat, (F : ℚ) * 2 ^ x = K * 2 ^ U := by
      apply multiple_of F x U hF
      by_cases hU : U = -1074
      · left; omega
      · right
        have hM : (2 : ℚ) ^ 52 ≤ M := by exact_mod_cast h5 hU
        rw [hhalf] at a hu h4
        generalize (2 : ℚ) ^ (U - 1) = t at *
        nlinarith
    rw [hK] at a b
    have c1 : M < K := by
      have := lt_of_mul_lt_mul_right a hu.le
      exact_mod_cast this
    have c2 : (M : ℚ) + 1 ≤ K := by exact_mod_cast c1
    nlinarith
  · rintro ⟨a, b⟩
    obtain ⟨K, hK⟩ : ∃ K : Nat, (F : ℚ) * 2 ^ x = K * 2 ^ U := by
      apply multiple_of F x U hF
      by_cases hU : U = -1074
      · left; omega
      · right
        by_cases hM2 : M = 2 ^ 52
        · have := h6 hM2 hU
          have hM : (M : ℚ) = 2 ^ 52 := by rw [hM2]; push_cast; ring
          rw [hM] at this
          rw [hhalf] at this hu
          generalize (2 : ℚ) ^ (U - 1) = t at *
          nlinarith
        · have hM : (2 : ℚ) ^ 52 + 1 ≤ M := by
            have := h5 hU
            exact_mod_cast (show 2 ^ 52 + 1 ≤ M by omega)
          rw [hhalf] at hu h4
          generalize (2 : ℚ) ^ (U - 1) = t at *
          nlinarith
    rw [hK] at a b
    have c1 : K < M := by
      have := lt_of_mul_lt_mul_right b hu.le
      exact_mod_cast this
    have c2 : (K : ℚ) + 1 ≤ M := by exact_mod_cast c1
    nlinarith

end Verif.Misc
