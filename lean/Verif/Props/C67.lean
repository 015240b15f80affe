import Verif.Props.C66
/-!
C67: a floating-point number which is converted to text and back is the same number.

Violated: only 15 decimals are printed.  It holds for numbers which have no more than 15 decimals, and for all numbers from
128 up to the size at which the text is cut.
-/
namespace Verif.Misc
open Spec

theorem pow_big : (10 : ℚ) ^ 30 + 1 < 2 ^ (1024 : Int) * (1 / 2) := by
  have h : (2 : ℚ) ^ (1024 : Int) ≥ 2 ^ (101 : Int) := zpow_le_zpow_right₀ (by norm_num) (by norm_num)
  have h2 : (2 : ℚ) ^ (101 : Int) = 2 ^ 101 := rfl
  rw [h2] at h
  generalize (2 : ℚ) ^ (1024 : Int) = t at *
  linarith

theorem pow_small : (2 : ℚ) ^ (-1022 : Int) + 2 ^ (-1074 : Int) < 1 / 10 ^ 15 := by
  have h1 : (2 : ℚ) ^ (-1022 : Int) ≤ 2 ^ (-60 : Int) := zpow_le_zpow_right₀ (by norm_num) (by norm_num)
  have h2 : (2 : ℚ) ^ (-1074 : Int) ≤ 2 ^ (-60 : Int) := zpow_le_zpow_right₀ (by norm_num) (by norm_num)
  have h3 : (2 : ℚ) ^ (-60 : Int) = 1 / 2 ^ 60 := by norm_num
  rw [h3] at h1 h2
  generalize (2 : ℚ) ^ (-1022 : Int) = a at *
  generalize (2 : ℚ) ^ (-1074 : Int) = b at *
  linarith

/-- A literal without an exponent which denotes a number below 10^30 is accepted. -/
theorem accepted (l : FloatLit) (hl : l.WF) (he : l.exp = none) (hv : l.value ≤ 10 ^ 30 + 1) : ∃ b, parseDouble l.text = .ok b := by
  have hw : l.written = 0 := by unfold FloatLit.written; rw [he]
  cases hp : parseDouble l.text with
  | ok b => exact ⟨b, rfl⟩
  | err =>
    exfalso
    rcases C49_rejected l hl hp with h | h
    · rw [hw] at h; omega
    · have := pow_big
      have hp := two_zpow_pos 1024
      generalize (2 : ℚ) ^ (1024 : Int) = t at *
      linarith
  | ub =>
    exfalso
    have := (C49_ub_iff l hl).1 hp
    omega

/-- A literal which denotes the number which is printed is parsed to the number from which it was made. -/
theorem literal_back (bits : Nat) (hf : expField bits < 2047) (h30 : magnitude bits < 10 ^ 30)
    (hx : 128 ≤ magnitude bits ∨ ∃ n : Nat, magnitude bits * 10 ^ 15 = n)
    (l : FloatLit) (h1 : l.WF) (h4 : l.frac ≠ none) (h5 : l.exp = none) (h6 : l.value = tenTo15 bits / 10 ^ 15)
    (x : Nat) (hb : x < 2 ^ 64) (hxs : signBit x = l.negative) (hxm : magnitude x = magnitude bits) :
    parseNumeric l.text = .ok (.float x) := by
  have hn := tenTo15_near bits hf
  have hv : l.value ≤ 10 ^ 30 + 1 := by
    rw [h6]; rw [abs_le] at hn; linarith
  obtain ⟨b, hpb⟩ := accepted l h1 h5 hv
  rw [C49_numeric l h1 (Or.inl h4), hpb]
  obtain ⟨b1, b2, M, U, hR, hS⟩ := parseDouble_rounded l h1 b hpb
  suffices hm : magnitude b = magnitude bits by
    rw [double_ext b x b1 hb (by rw [b2, hxs]) (by rw [hm, hxm])]
  rcases hx with hx | ⟨n, hx⟩
  · have hE : 1030 ≤ expField bits := by
      by_contra hc
      have h128 : magnitude bits < magnitude 0x4060000000000000 := by
        apply magnitude_lt_of
        have : expField 0x4060000000000000 = 1030 := by decide +kernel
        omega
      have : magnitude 0x4060000000000000 = 128 := by
        have := (magnitude_normal 0x4060000000000000 (2 ^ 52) 1030 (-45) (by decide +kernel) (by decide +kernel) (by norm_num) (by norm_num) (by norm_num)).1
        rw [this]; norm_num
      linarith
    have hF : fracField bits < 2 ^ 52 := Nat.mod_lt _ (by norm_num)
    have hmag := magnitude_parts bits
    have hs1 : 2 ^ 52 ≤ signif bits := by unfold signif; rw [if_neg (by omega)]; omega
    have hs2 : signif bits < 2 ^ 53 := by unfold signif; rw [if_neg (by omega)]; omega
    have hp : -45 ≤ place bits := by unfold place; omega
    have hp45 : (2 : ℚ) ^ (-45 : Int) ≤ 2 ^ place bits := zpow_le_zpow_right₀ (by norm_num) hp
    have hp45' : (2 : ℚ) ^ (-45 : Int) = 1 / 2 ^ 45 := by norm_num
    have hst := rounded_stable l.value M (signif bits) U (place bits) hR hs1 hs2 (by omega) (by
      rw [← hmag, h6]
      rw [hp45'] at hp45
      rw [abs_le] at hn ⊢
      generalize (2 : ℚ) ^ place bits = t at *
      constructor <;> linarith)
    rcases hS with ⟨s1, s2, s3⟩ | ⟨rfl, rfl, s3, s4⟩ | ⟨rfl, rfl, s3, s4⟩
    · rw [s2, hst, ← hmag]
    · exfalso
      rw [← hmag, ← pow_lo] at hst
      have : (2 : ℚ) ^ (-1022 : Int) ≤ 2 ^ (0 : Int) := zpow_le_zpow_right₀ (by norm_num) (by norm_num)
      rw [zpow_zero] at this
      linarith
    · exfalso
      rw [← hmag, ← pow_hi] at hst
      have := pow_big
      have hp := two_zpow_pos 1024
      generalize (2 : ℚ) ^ (1024 : Int) = t at *
      linarith
  · have hN : (tenTo15 bits : ℚ) = n := by
      rw [hx] at hn
      have h1 : |((tenTo15 bits : Int) : ℚ) - ((n : Int) : ℚ)| < 1 := by
        rw [Int.cast_natCast, Int.cast_natCast]; linarith
      have h2 : |(tenTo15 bits : Int) - (n : Int)| < 1 := by exact_mod_cast h1
      rw [Int.abs_lt_one_iff] at h2
      have : tenTo15 bits = n := by omega
      rw [this]
    have hval : l.value = magnitude bits := by rw [h6, hN, ← hx]; field_simp
    have hx1 : ¬ |2 ^ (-1022 : Int) - l.value| < 2 ^ (-1074 : Int) := by
      intro hlt
      rw [abs_lt] at hlt
      rcases Nat.eq_zero_or_pos n with rfl | hpos
      · have h0 : l.value = 0 := by rw [h6, hN]; simp
        rw [h0, pow_lo] at hlt
        have := two_zpow_pos (-1074)
        rw [Nat.cast_pow, Nat.cast_ofNat] at hlt
        generalize (2 : ℚ) ^ (-1074 : Int) = t at *
        linarith
      · have h1 : 1 / 10 ^ 15 ≤ l.value := by
          rw [h6, hN]
          have : (1 : ℚ) ≤ n := by exact_mod_cast hpos
          linarith
        have := pow_small
        generalize (2 : ℚ) ^ (-1022 : Int) = a at *
        generalize (2 : ℚ) ^ (-1074 : Int) = b at *
        linarith
    have hx2 : ¬ |2 ^ (1024 : Int) - l.value| < 2 ^ (971 : Int) := by
      intro hlt
      rw [abs_lt] at hlt
      have hp : (2 : ℚ) ^ (1024 : Int) = 2 ^ 53 * 2 ^ (971 : Int) := pow_split 1024 971 _ 53 (by norm_num) rfl
      have hb := pow_big
      have := two_zpow_pos 971
      rw [hp] at hlt hb
      clear hp
      generalize (2 : ℚ) ^ (971 : Int) = t at *
      linarith
    have := C49_exact l h1 b hpb bits hf hval hx1 hx2
    rw [this, hval]

/-- Text and back. -/
theorem C67_partial (bits : Nat) (hb : bits < 2 ^ 64) (hf : expField bits < 2047)
    (h : magnitude bits < 10 ^ (if signBit bits then 29 else 30))
    (hx : 128 ≤ magnitude bits ∨ ∃ n : Nat, magnitude bits * 10 ^ 15 = n) :
    parseNumeric (printFloat 32 bits) = .ok (.float bits) := by
  obtain ⟨l, h1, h2, h3, h4, h5, h6, _⟩ := printFloat_text bits hf h
  have h30 : magnitude bits < 10 ^ 30 := lt_of_lt_of_le h (pow_le_pow_right₀ (by norm_num) (by split <;> omega))
  rw [← h2]
  exact literal_back bits hf h30 hx l h1 h4 h5 h6 bits hb h3.symm rfl

/-- Not about nothing: -1234.5678 and 0.375 satisfy the premises. -/
example : parseNumeric (printFloat 32 0xC0934A456D5CFAAD) = .ok (.float 0xC0934A456D5CFAAD) := by decide +kernel
example : parseNumeric (printFloat 32 0x3FD8000000000000) = .ok (.float 0x3FD8000000000000) := by decide +kernel

/-- 0.1 + 0.2, 1e-16 and 10^22 * 2^30 come back as other numbers. -/
theorem C67_violated :
    parseNumeric (printFloat 32 0x3FD3333333333334) = .ok (.float 0x3FD3333333333333) ∧
    parseNumeric (printFloat 32 0x3C9CD2B297D889BC) = .ok (.float 0) ∧
    parseNumeric (printFloat 32 0x4660F0CF064DD592) = .ok (.int 1073741824) := by
  refine ⟨by decide +kernel, by decide +kernel, by decide +kernel⟩

end Verif.Misc
