import Verif.Misc.FloatStable
/-!
C66: the text of a floating-point number.

The text which `kos_print_float` makes of a finite number, in the buffer of 32 bytes which the string conversion and the
optimizer use, is a floating-point literal with a point, which denotes the number to 15 decimals, as long as the number is
below 10^30, or 10^29 if it is negative.  Beyond that the buffer is too short: the text loses its last digits, and if no
point is left, zeroes of the number itself are removed.
-/
namespace Verif.Misc
open Spec

/-- Bytes of a text. -/
def ascii (s : String) : List Nat := s.toList.map Char.toNat

/-- The text is a literal which denotes the number to 15 decimals, without superfluous zeroes at its ends. -/
theorem C66_partial (bits : Nat) (hf : expField bits < 2047) (h : magnitude bits < 10 ^ (if signBit bits then 29 else 30)) :
    ∃ l : FloatLit, l.WF ∧ l.text = printFloat 32 bits ∧ l.negative = signBit bits ∧ l.frac ≠ none ∧ l.exp = none ∧
      |l.value - magnitude bits| ≤ 1 / (2 * 10 ^ 15) ∧
      (∀ t, l.int = 48 :: t → t = []) ∧ ∀ t, l.frac = some (t ++ [48]) → t = [] := by
  obtain ⟨l, h1, h2, h3, h4, h5, h6, h7, h8, _⟩ := printFloat_text bits hf h
  refine ⟨l, h1, h2, h3, h4, h5, ?_, h7, h8⟩
  have hn := tenTo15_near bits hf
  rw [h6]
  rw [abs_le] at hn ⊢
  constructor <;> linarith

/-- `C66_partial` is not about nothing: one tenth, the opposite of zero, a number which is cut to 31 bytes. -/
example : printFloat 32 0x3FB999999999999A = ascii "0.1" := by decide +kernel
example : printFloat 32 0x8000000000000000 = ascii "-0.0" := by decide +kernel
example : printFloat 32 0xC5F431E0FAE6D721 = ascii "-99999999999999991433150857216." := by decide +kernel
example : printFloat 32 0xC341C37937E08001 = ascii "-10000000000000002.0" := by decide +kernel

/-- Numbers which are not finite. -/
theorem C66_special (size bits : Nat) (hf : expField bits = 2047) :
    printFloat size bits = ascii (if fracField bits ≠ 0 then "nan" else if signBit bits then "-infinity" else "infinity") := by
  unfold printFloat
  rw [if_pos (show bits / 2 ^ 52 % 2 ^ 11 = 0x7FF from hf)]
  unfold fracField signBit
  by_cases h : bits % 2 ^ 52 ≠ 0
  · rw [if_pos h, if_pos h]; rfl
  · rw [if_neg h, if_neg h]
    by_cases hs : bits / 2 ^ 63 % 2 = 1
    · rw [if_pos hs, if_pos (decide_eq_true hs)]; rfl
    · rw [if_neg hs, if_neg (by simpa using hs)]; rfl

/-- The text never overflows the buffer, whatever the number. -/
theorem C66_fits (size bits : Nat) (h : 10 ≤ size) : (printFloat size bits).length ≤ size - 1 := by
  unfold printFloat
  split
  · split
    · simp; omega
    · split <;> simp <;> omega
  · simp only [List.length_take]; omega

/-- 10^22 * 2^30 becomes "1073741824", an integer without its 22 zeroes; 10^32 becomes an integer with its last two digits missing. -/
theorem C66_violated :
    (∃ bits, bits < 2 ^ 64 ∧ expField bits < 2047 ∧ magnitude bits = 1073741824 * 10 ^ 22 ∧ printFloat 32 bits = ascii "1073741824") ∧
    (∃ bits, bits < 2 ^ 64 ∧ expField bits < 2047 ∧ 10 ^ 32 < magnitude bits ∧ printFloat 32 bits = ascii "1000000000000000053661622043934") := by
  refine ⟨⟨0x4660F0CF064DD592, by decide, by decide, ?_, by decide +kernel⟩, ⟨0x4693B8B5B5056E17, by decide, by decide, ?_, by decide +kernel⟩⟩
  · have h := (magnitude_normal 0x4660F0CF064DD592 (2 ^ 52 + 264771954660754) 1126 51 (by decide +kernel) (by decide +kernel) (by norm_num) (by norm_num) (by norm_num)).1
    rw [h, show (2 : ℚ) ^ (51 : Int) = 2 ^ 51 from rfl]; norm_num
  · have h := (magnitude_normal 0x4693B8B5B5056E17 (2 ^ 52 + 1047515495755287) 1129 54 (by decide +kernel) (by decide +kernel) (by norm_num) (by norm_num) (by norm_num)).1
    rw [h, show (2 : ℚ) ^ (54 : Int) = 2 ^ 54 from rfl]; norm_num

end Verif.Misc
