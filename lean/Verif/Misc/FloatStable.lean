import Verif.Props.C49
import Verif.Misc.PrintFloatLemmas
/-
A number which is close to a double is parsed to that double.
-/
namespace Verif.Misc
open Spec

/-- If the number is within 1/40 of the last place of a double, it is rounded to that double. -/
theorem rounded_stable (w : ℚ) (M X : Nat) (U Ux : Int) (h : Rounded w M U) (hX1 : 2 ^ 52 ≤ X) (hX2 : X < 2 ^ 53) (hUx : -1074 ≤ Ux)
    (hw : |w - X * 2 ^ Ux| ≤ 1 / 40 * 2 ^ Ux) : (M : ℚ) * 2 ^ U = X * 2 ^ Ux := by
  obtain ⟨h1, _, h3, h4, h5, h6⟩ := h
  rw [abs_lt] at h4
  rw [abs_le] at hw
  have hX1q : (2 : ℚ) ^ 52 ≤ X := by exact_mod_cast hX1
  have hX2q : (X : ℚ) + 1 ≤ 2 ^ 53 := by exact_mod_cast hX2
  have h3q : (M : ℚ) ≤ 2 ^ 53 := by exact_mod_cast h3
  have hu := two_zpow_pos Ux
  have hv := two_zpow_pos U
  rcases lt_trichotomy U Ux with hlt | rfl | hgt
  · by_cases he : U = Ux - 1
    · have hp : (2 : ℚ) ^ Ux = 2 ^ 1 * 2 ^ U := pow_split _ U _ 1 (by push_cast; omega) rfl
      rw [hp] at hw hu ⊢
      generalize (2 : ℚ) ^ U = t at *
      have g1 : M < 2 * X + 1 := by
        have : ((M : ℚ)) * t < (2 * X + 1) * t := by nlinarith
        exact_mod_cast lt_of_mul_lt_mul_right this hv.le
      have g2 : 2 * X < M + 1 := by
        have : ((2 * X : ℚ)) * t < (M + 1) * t := by nlinarith
        exact_mod_cast lt_of_mul_lt_mul_right this hv.le
      have : M = 2 * X := by omega
      rw [this]; push_cast; ring
    · exfalso
      have hp : (2 : ℚ) ^ U ≤ 2 ^ (Ux - 2) := zpow_le_zpow_right₀ (by norm_num) (by omega)
      have hp2 : (2 : ℚ) ^ Ux = 2 ^ 2 * 2 ^ (Ux - 2) := pow_split _ (Ux - 2) _ 2 (by push_cast; omega) rfl
      rw [hp2] at hw hu
      generalize (2 : ℚ) ^ (Ux - 2) = t at *
      generalize (2 : ℚ) ^ U = v at *
      have a1 : (M : ℚ) * v ≤ 2 ^ 53 * t := mul_le_mul h3q hp hv.le (by norm_num)
      have a2 : (2 : ℚ) ^ 52 * t ≤ X * t := mul_le_mul_of_nonneg_right hX1q (by linarith)
      nlinarith
  · generalize (2 : ℚ) ^ U = t at *
    have g1 : M < X + 1 := by
      have : ((M : ℚ)) * t < (X + 1) * t := by nlinarith
      exact_mod_cast lt_of_mul_lt_mul_right this hv.le
    have g2 : X < M + 1 := by
      have : ((X : ℚ)) * t < (M + 1) * t := by nlinarith
      exact_mod_cast lt_of_mul_lt_mul_right this hv.le
    have : M = X := by omega
    rw [this]
  · exfalso
    have hM := h5 (by omega)
    have hMq : (2 : ℚ) ^ 52 ≤ M := by exact_mod_cast hM
    by_cases he : U = Ux + 1
    · have hp : (2 : ℚ) ^ U = 2 ^ 1 * 2 ^ Ux := pow_split _ Ux _ 1 (by push_cast; omega) rfl
      rw [hp] at h4 h6 hv
      generalize (2 : ℚ) ^ Ux = t at *
      have g1 : 2 * M < X + 2 := by
        have : ((2 * M : ℚ)) * t < (X + 2) * t := by nlinarith
        exact_mod_cast lt_of_mul_lt_mul_right this hu.le
      have hM2 : M = 2 ^ 52 := by omega
      have := h6 hM2 (by omega)
      have hMc : (M : ℚ) = 2 ^ 52 := by rw [hM2]; push_cast; rfl
      rw [hMc] at this
      nlinarith
    · have hp : (2 : ℚ) ^ (Ux + 2) ≤ 2 ^ U := zpow_le_zpow_right₀ (by norm_num) (by omega)
      have hp2 : (2 : ℚ) ^ (Ux + 2) = 2 ^ 2 * 2 ^ Ux := pow_split _ Ux _ 2 (by push_cast; omega) rfl
      rw [hp2] at hp
      generalize (2 : ℚ) ^ U = v at *
      generalize (2 : ℚ) ^ Ux = t at *
      have a1 : (2 : ℚ) ^ 52 * v ≤ M * v := mul_le_mul_of_nonneg_right hMq hv.le
      have a2 : (X : ℚ) * t ≤ (2 ^ 53 - 1) * t := mul_le_mul_of_nonneg_right (by linarith) hu.le
      nlinarith

/-- The significand of a finite double, and the exponent of its last place. -/
def signif (bits : Nat) : Nat := if expField bits = 0 then fracField bits else 2 ^ 52 + fracField bits
def place (bits : Nat) : Int := (max (expField bits) 1 : Int) - 1075

theorem magnitude_parts (bits : Nat) : magnitude bits = signif bits * 2 ^ place bits := by
  unfold magnitude signif ulp place
  split
  · rfl
  · push_cast; rfl

theorem magnitude_lt_of (a b : Nat) (h : expField a < expField b) : magnitude a < magnitude b := by
  have ha : fracField a < 2 ^ 52 := Nat.mod_lt _ (by norm_num)
  have hSb : (2 : ℚ) ^ 52 ≤ signif b := by
    unfold signif; rw [if_neg (by omega)]; push_cast; have : (0 : ℚ) ≤ fracField b := Nat.cast_nonneg _; linarith
  rw [magnitude_parts, magnitude_parts]
  have hpa := two_zpow_pos (place a)
  by_cases h0 : expField a = 0
  · have hSa : (signif a : ℚ) < 2 ^ 52 := by unfold signif; rw [if_pos h0]; exact_mod_cast ha
    have hp : (2 : ℚ) ^ place a ≤ 2 ^ place b := zpow_le_zpow_right₀ (by norm_num) (by unfold place; omega)
    generalize (2 : ℚ) ^ place a = x at *
    generalize (2 : ℚ) ^ place b = y at *
    calc (signif a : ℚ) * x < 2 ^ 52 * x := mul_lt_mul_of_pos_right hSa hpa
      _ ≤ signif b * y := mul_le_mul hSb hp hpa.le (by linarith)
  · have hSa : (signif a : ℚ) < 2 ^ 53 := by unfold signif; rw [if_neg h0]; exact_mod_cast (show 2 ^ 52 + fracField a < 2 ^ 53 by omega)
    have hp : (2 : ℚ) ^ (place a + 1) ≤ 2 ^ place b := zpow_le_zpow_right₀ (by norm_num) (by unfold place; omega)
    rw [pow_split (place a + 1) (place a) _ 1 (by push_cast; rfl) rfl] at hp
    generalize (2 : ℚ) ^ place a = x at *
    generalize (2 : ℚ) ^ place b = y at *
    calc (signif a : ℚ) * x < 2 ^ 53 * x := mul_lt_mul_of_pos_right hSa hpa
      _ = 2 ^ 52 * (2 ^ 1 * x) := by ring
      _ ≤ signif b * y := mul_le_mul hSb hp (by linarith) (by linarith)

/-- Different doubles are different numbers, but for the sign. -/
theorem double_ext (a b : Nat) (ha : a < 2 ^ 64) (hb : b < 2 ^ 64) (hs : signBit a = signBit b) (hm : magnitude a = magnitude b) : a = b := by
  have he : expField a = expField b := by
    rcases lt_trichotomy (expField a) (expField b) with h | h | h
    · exact absurd hm (magnitude_lt_of a b h).ne
    · exact h
    · exact absurd hm (magnitude_lt_of b a h).ne'
  have hf : fracField a = fracField b := by
    rw [magnitude_parts, magnitude_parts] at hm
    have hp : place a = place b := by unfold place; rw [he]
    rw [hp] at hm
    have := mul_right_cancel₀ (two_zpow_pos (place b)).ne' hm
    have : signif a = signif b := by exact_mod_cast this
    unfold signif at this
    rw [he] at this
    split at this <;> omega
  unfold signBit at hs
  unfold expField at he
  unfold fracField at hf
  have hs' : (a / 2 ^ 63 % 2 = 1) ↔ (b / 2 ^ 63 % 2 = 1) := by simpa using hs
  omega

end Verif.Misc
