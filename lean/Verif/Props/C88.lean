import Verif.Utils.GetInt

/-!
C88: numbers converted to integers, as for indexes (`KOS_get_integer`, core/kos_utils.c:164-200).

Full statement: a number becomes the greatest integer which is not above it, if this is in the range of integers; anything else is an exception.

What is proved: this holds for all numbers except NaN, for which the conversion is undefined, and the least integer as a floating-point number, which is
rejected.
-/
set_option exponentiation.threshold 2000

namespace Verif.GetInt

/-- `v * 2 ^ 1074` where `v` is the value of the finite double with sign `s`, exponent field `e` and fraction field `f`: an integer, since all doubles
are multiples of `2 ^ -1074`. -/
def scaled (s : Bool) (e f : Nat) : Int :=
  (if s then -1 else 1) * (if e = 0 then f else (2 ^ 52 + f) * 2 ^ (e - 1) : Nat)

/-- The bits of a double. -/
def pack (s : Bool) (e f : Nat) : Nat := (if s then 2 ^ 63 else 0) + e * 2 ^ 52 + f

/-- All 64-bit patterns are of this form. -/
theorem pack_all (b : Nat) (h : b < 2 ^ 64) : ∃ s e f, e < 2048 ∧ f < 2 ^ 52 ∧ b = pack s e f := by
  by_cases hs : b < 2 ^ 63
  · exact ⟨false, b / 2 ^ 52, b % 2 ^ 52, by omega, by omega, by unfold pack; simp; omega⟩
  · exact ⟨true, (b - 2 ^ 63) / 2 ^ 52, b % 2 ^ 52, by omega, by omega, by unfold pack; simp; omega⟩

theorem expo_pack {s : Bool} {e f : Nat} (he : e < 2048) (hf : f < 2 ^ 52) : expo (pack s e f) = e := by
  unfold expo pack; cases s <;> simp at hf ⊢ <;> omega

theorem frac_pack {s : Bool} {e f : Nat} (hf : f < 2 ^ 52) : frac (pack s e f) = f := by
  unfold frac pack; cases s <;> simp at hf ⊢ <;> omega

theorem key_pack {s : Bool} {e f : Nat} (he : e < 2048) (hf : f < 2 ^ 52) : key (pack s e f) = (if s then -1 else 1) * ((e * 2 ^ 52 + f : Nat) : Int) := by
  unfold key pack
  cases s
  · simp at hf ⊢; omega
  · simp at hf ⊢; omega

theorem mant_power (s : Bool) {e f : Nat} (he : e < 2048) (hf : f < 2 ^ 52) :
    scaled s e f = (if s then -1 else 1) * ((mant (pack s e f) * 2 ^ (power (pack s e f) - 1) : Nat) : Int) := by
  unfold scaled mant power
  rw [expo_pack he hf, frac_pack hf]
  by_cases h : e = 0
  · simp [h]
  · simp only [if_neg h]

/-- Which numbers pass the test of the range. -/
theorem small_iff {e f : Nat} (he : e < 2047) (hf : f < 2 ^ 52) : e * 2 ^ 52 + f < 0x43E0000000000000 ↔
    (if e = 0 then f else (2 ^ 52 + f) * 2 ^ (e - 1)) < 2 ^ 63 * 2 ^ 1074 := by
  have hp : (2 : Nat) ^ 63 * 2 ^ 1074 = 2 ^ 53 * 2 ^ 1084 := by decide +kernel
  rw [hp]
  have h53 : (2 : Nat) ^ 53 = 2 * 2 ^ 52 := by rw [Nat.pow_succ, Nat.mul_comm]
  by_cases h0 : e = 0
  · subst h0
    simp only [if_true]
    have : f < 2 ^ 53 * 2 ^ 1084 := Nat.lt_of_lt_of_le (show f < 2 ^ 53 by omega) (Nat.le_mul_of_pos_right _ (Nat.two_pow_pos _))
    constructor
    · intro _; exact this
    · intro _; omega
  · rw [if_neg h0]
    by_cases h1 : e ≤ 1085
    · constructor
      · intro _
        have a1 : (2 : Nat) ^ (e - 1) ≤ 2 ^ 1084 := Nat.pow_le_pow_right (by omega) (by omega)
        have a2 : (2 ^ 52 + f) * 2 ^ (e - 1) < 2 ^ 53 * 2 ^ (e - 1) := Nat.mul_lt_mul_of_pos_right (by omega) (Nat.two_pow_pos _)
        exact Nat.lt_of_lt_of_le a2 (Nat.mul_le_mul_left _ a1)
      · intro _; omega
    · constructor
      · intro h; omega
      · intro h
        exfalso
        have a1 : (2 : Nat) ^ 1085 ≤ 2 ^ (e - 1) := Nat.pow_le_pow_right (by omega) (by omega)
        have a2 : 2 ^ 52 * 2 ^ 1085 ≤ (2 ^ 52 + f) * 2 ^ (e - 1) := Nat.mul_le_mul (by omega) a1
        have a3 : (2 : Nat) ^ 53 * 2 ^ 1084 = 2 ^ 52 * 2 ^ 1085 := by decide +kernel
        omega

theorem floor_pos (m p : Nat) (hp : 1 ≤ p) : ∀ z : Nat, z = (if 1075 ≤ p then m * 2 ^ (p - 1075) else m / 2 ^ (1075 - p)) →
    z * 2 ^ 1074 ≤ m * 2 ^ (p - 1) ∧ m * 2 ^ (p - 1) < (z + 1) * 2 ^ 1074 := by
  intro z hz
  by_cases h : 1075 ≤ p
  · rw [if_pos h] at hz
    have : m * 2 ^ (p - 1) = z * 2 ^ 1074 := by
      rw [hz, Nat.mul_assoc, ← Nat.pow_add]
      congr 2
      omega
    rw [this]
    exact ⟨Nat.le_refl _, Nat.mul_lt_mul_of_pos_right (by omega) (Nat.two_pow_pos _)⟩
  · rw [if_neg h] at hz
    have hs : (2 : Nat) ^ 1074 = 2 ^ (1075 - p) * 2 ^ (p - 1) := by rw [← Nat.pow_add]; congr 1; omega
    have hd := Nat.two_pow_pos (1075 - p)
    rw [hs, ← Nat.mul_assoc, ← Nat.mul_assoc]
    refine ⟨Nat.mul_le_mul_right _ ?_, Nat.mul_lt_mul_of_pos_right ?_ (Nat.two_pow_pos _)⟩
    · rw [hz]; exact Nat.div_mul_le_self _ _
    · rw [hz, Nat.mul_comm]; exact Nat.lt_mul_div_succ _ hd

theorem floor_neg (m p : Nat) (hp : 1 ≤ p) : ∀ z : Nat, z = (if 1075 ≤ p then m * 2 ^ (p - 1075) else (m + 2 ^ (1075 - p) - 1) / 2 ^ (1075 - p)) →
    m * 2 ^ (p - 1) ≤ z * 2 ^ 1074 ∧ z * 2 ^ 1074 < m * 2 ^ (p - 1) + 2 ^ 1074 := by
  intro z hz
  by_cases h : 1075 ≤ p
  · rw [if_pos h] at hz
    have : m * 2 ^ (p - 1) = z * 2 ^ 1074 := by
      rw [hz, Nat.mul_assoc, ← Nat.pow_add]
      congr 2
      omega
    rw [this]
    exact ⟨Nat.le_refl _, Nat.lt_add_of_pos_right (Nat.two_pow_pos _)⟩
  · rw [if_neg h] at hz
    have hs : (2 : Nat) ^ 1074 = 2 ^ (1075 - p) * 2 ^ (p - 1) := by rw [← Nat.pow_add]; congr 1; omega
    have hd := Nat.two_pow_pos (1075 - p)
    rw [hs, ← Nat.mul_assoc, ← Nat.add_mul]
    generalize 2 ^ (1075 - p) = d at *
    have h1 : z * d ≤ m + d - 1 := by rw [hz]; exact Nat.div_mul_le_self _ _
    have h2 : m + d - 1 < d * (z + 1) := by rw [hz]; exact Nat.lt_mul_div_succ _ hd
    rw [Nat.mul_add, Nat.mul_one, Nat.mul_comm] at h2
    exact ⟨Nat.mul_le_mul_right _ (by omega), Nat.mul_lt_mul_of_pos_right (by omega) (Nat.two_pow_pos _)⟩

theorem power_pos (b : Nat) : 1 ≤ power b := by unfold power; split <;> omega

/-- `z` is the greatest integer not above `n / 2 ^ 1074`. -/
def IsFloor (n z : Int) : Prop := z * 2 ^ 1074 ≤ n ∧ n < (z + 1) * 2 ^ 1074

theorem floor_isFloor (s : Bool) {e f : Nat} (he : e < 2048) (hf : f < 2 ^ 52) : IsFloor (scaled s e f) (floor (pack s e f)) := by
  have hp := power_pos (pack s e f)
  have hs : (pack s e f < 9223372036854775808) ↔ s = false := by
    unfold pack; cases s <;> simp at hf ⊢ <;> omega
  rw [mant_power s he hf]
  unfold floor IsFloor
  generalize mant (pack s e f) = m at *
  generalize power (pack s e f) = p at *
  have hc : ((2 : Int) ^ 1074) = ((2 ^ 1074 : Nat) : Int) := by rw [Int.natCast_pow]; rfl
  rw [hc]
  cases s
  · rw [if_pos (hs.2 rfl)]
    have h := floor_pos m p hp _ rfl
    have e1 : (if 1075 ≤ p then ((m * 2 ^ (p - 1075) : Nat) : Int) else ((m / 2 ^ (1075 - p) : Nat) : Int)) =
        ((if 1075 ≤ p then m * 2 ^ (p - 1075) else m / 2 ^ (1075 - p) : Nat) : Int) := by split <;> rfl
    rw [e1]
    generalize (if 1075 ≤ p then m * 2 ^ (p - 1075) else m / 2 ^ (1075 - p) : Nat) = z at *
    generalize m * 2 ^ (p - 1) = n at *
    generalize 2 ^ 1074 = S at *
    simp only [Bool.false_eq_true, if_false, Int.one_mul]
    exact ⟨by exact_mod_cast h.1, by exact_mod_cast h.2⟩
  · rw [if_neg (fun h => by have := hs.1 h; cases this)]
    have h := floor_neg m p hp _ rfl
    have e1 : (if 1075 ≤ p then -((m * 2 ^ (p - 1075) : Nat) : Int) else -(((m + 2 ^ (1075 - p) - 1) / 2 ^ (1075 - p) : Nat) : Int)) =
        -((if 1075 ≤ p then m * 2 ^ (p - 1075) else (m + 2 ^ (1075 - p) - 1) / 2 ^ (1075 - p) : Nat) : Int) := by split <;> rfl
    rw [e1]
    generalize (if 1075 ≤ p then m * 2 ^ (p - 1075) else (m + 2 ^ (1075 - p) - 1) / 2 ^ (1075 - p) : Nat) = z at *
    generalize m * 2 ^ (p - 1) = n at *
    generalize 2 ^ 1074 = S at *
    simp only [if_true]
    have h1 : (n : Int) ≤ (z : Int) * (S : Int) := by exact_mod_cast h.1
    have h2 : (z : Int) * (S : Int) < n + S := by exact_mod_cast h.2
    rw [Int.add_mul, Int.neg_mul, Int.one_mul, Int.neg_mul, Int.one_mul]
    omega

/-- The floor of a number between the bounds is in the range of integers. -/
theorem isFloor_range {n z : Int} (h : IsFloor n z) (h1 : -(2 ^ 63) * 2 ^ 1074 < n) (h2 : n < 2 ^ 63 * 2 ^ 1074) : -(2 ^ 63) ≤ z ∧ z < 2 ^ 63 := by
  obtain ⟨a, b⟩ := h
  have hS : (0 : Int) < 2 ^ 1074 := Int.pow_pos (by omega)
  generalize (2 : Int) ^ 1074 = S at *
  have c1 := Int.lt_of_mul_lt_mul_right (Int.lt_trans h1 b) (Int.le_of_lt hS)
  have c2 := Int.lt_of_mul_lt_mul_right (Int.lt_of_le_of_lt a h2) (Int.le_of_lt hS)
  omega

theorem isFloor_unique {n z w : Int} (h : IsFloor n z) (k : IsFloor n w) : z = w := by
  obtain ⟨a, b⟩ := h
  obtain ⟨c, d⟩ := k
  have hS : (0 : Int) < 2 ^ 1074 := Int.pow_pos (by omega)
  generalize (2 : Int) ^ 1074 = S at *
  have c1 := Int.lt_of_mul_lt_mul_right (Int.lt_of_le_of_lt a d) (Int.le_of_lt hS)
  have c2 := Int.lt_of_mul_lt_mul_right (Int.lt_of_le_of_lt c b) (Int.le_of_lt hS)
  omega

/-- The test of the range, for a number which is not NaN. -/
theorem test_iff {s : Bool} {e f : Nat} (he : e < 2048) (hf : f < 2 ^ 52) (hn : ¬ (e = 2047 ∧ f ≠ 0)) :
    (le (pack s e f) 0xC3E0000000000000 || le 0x43E0000000000000 (pack s e f)) = true ↔ ¬ e * 2 ^ 52 + f < 0x43E0000000000000 := by
  have h1 : isNan (pack s e f) = false := by
    unfold isNan
    rw [expo_pack he hf, frac_pack hf]
    simp
    intro a
    by_cases hf0 : f = 0
    · exact hf0
    · exact absurd ⟨a, hf0⟩ hn
  have h2 : isNan 0xC3E0000000000000 = false := by decide
  have h3 : isNan 0x43E0000000000000 = false := by decide
  have k2 : key 0xC3E0000000000000 = -0x43E0000000000000 := by decide
  have k3 : key 0x43E0000000000000 = 0x43E0000000000000 := by decide
  unfold le
  rw [h1, h2, h3, k2, k3, key_pack he hf]
  generalize e * 2 ^ 52 + f = q
  cases s <;> simp <;> omega

theorem bound_iff (s : Bool) (n B : Nat) (h : 0 < B) :
    (-(B : Int) < (if s then -1 else 1) * (n : Int) ∧ (if s then -1 else 1) * (n : Int) < B) ↔ n < B := by
  cases s <;> simp <;> omega

/-- What is converted to what: finite numbers between the bounds to the greatest integer not above them; numbers out of bounds, infinities and what is not
a number are exceptions. -/
theorem C88_integer_partial :
    (∀ v, getInteger (.int v) = .ok v) ∧
    getInteger .other = .exception ∧
    (∀ s, getInteger (.float (pack s 2047 0)) = .exception) ∧
    (∀ s e f, e < 2047 → f < 2 ^ 52 →
      (-(2 ^ 63) * 2 ^ 1074 < scaled s e f ∧ scaled s e f < 2 ^ 63 * 2 ^ 1074 →
        ∃ z, getInteger (.float (pack s e f)) = .ok z ∧ IsFloor (scaled s e f) z ∧ -(2 ^ 63) ≤ z ∧ z < 2 ^ 63) ∧
      (¬ (-(2 ^ 63) * 2 ^ 1074 < scaled s e f ∧ scaled s e f < 2 ^ 63 * 2 ^ 1074) → getInteger (.float (pack s e f)) = .exception)) := by
  refine ⟨fun _ => rfl, rfl, fun s => by cases s <;> decide, fun s e f he hf => ?_⟩
  have ht := test_iff (s := s) (show e < 2048 by omega) hf (by omega)
  have hs : (-(2 ^ 63) * 2 ^ 1074 < scaled s e f ∧ scaled s e f < 2 ^ 63 * 2 ^ 1074) ↔ e * 2 ^ 52 + f < 0x43E0000000000000 := by
    rw [small_iff he hf]
    unfold scaled
    generalize (if e = 0 then f else (2 ^ 52 + f) * 2 ^ (e - 1) : Nat) = n
    have hc : ((2 : Int) ^ 63 * 2 ^ 1074) = ((2 ^ 63 * 2 ^ 1074 : Nat) : Int) := by rw [Int.natCast_mul, Int.natCast_pow, Int.natCast_pow]; rfl
    have hpos : 0 < (2 : Nat) ^ 63 * 2 ^ 1074 := Nat.mul_pos (Nat.two_pow_pos _) (Nat.two_pow_pos _)
    rw [Int.neg_mul, hc]
    exact bound_iff s n _ hpos
  constructor
  · intro h
    have hf' := floor_isFloor s (show e < 2048 by omega) hf
    have hr := isFloor_range hf' h.1 h.2
    refine ⟨_, ?_, hf', hr⟩
    have hq : (le (pack s e f) 0xC3E0000000000000 || le 0x43E0000000000000 (pack s e f)) = false := by
      rw [← Bool.not_eq_true, ht]; exact fun g => g (hs.1 h)
    have h63 : (2 : Int) ^ 63 = 9223372036854775808 := by decide
    rw [h63] at hr
    show (if _ then _ else _) = _
    rw [hq]
    unfold toInt
    rw [expo_pack (by omega) hf, if_neg (by decide), if_neg (by omega), if_pos hr]
  · intro h
    exact if_pos (ht.2 (fun g => h (hs.2 g)))

/-- The conversion of NaN is undefined, for each of its representations: both comparisons are false. -/
theorem C88_nan_violated (s : Bool) (f : Nat) (hf : f < 2 ^ 52) (h0 : f ≠ 0) : getInteger (.float (pack s 2047 f)) = .ub := by
  have h1 : isNan (pack s 2047 f) = true := by
    unfold isNan
    rw [expo_pack (by omega) hf, frac_pack hf]
    simpa using h0
  show (if _ then _ else _) = _
  unfold le toInt
  rw [h1, expo_pack (by omega) hf]
  simp

/-- Only NaN is undefined. -/
theorem C88_defined (b : Nat) (h : b < 2 ^ 64) : getInteger (.float b) = .ub ↔ ∃ s f, f < 2 ^ 52 ∧ f ≠ 0 ∧ b = pack s 2047 f := by
  constructor
  · intro hu
    obtain ⟨s, e, f, he, hf, rfl⟩ := pack_all b h
    obtain ⟨-, -, hinf, hfin⟩ := C88_integer_partial
    by_cases h1 : e < 2047
    · exfalso
      obtain ⟨g1, g2⟩ := hfin s e f h1 hf
      by_cases hr : -(2 ^ 63) * 2 ^ 1074 < scaled s e f ∧ scaled s e f < 2 ^ 63 * 2 ^ 1074
      · obtain ⟨z, hz, -⟩ := g1 hr
        rw [hz] at hu; cases hu
      · rw [g2 hr] at hu; cases hu
    · obtain rfl : e = 2047 := by omega
      refine ⟨s, f, hf, ?_, rfl⟩
      rintro rfl
      rw [hinf s] at hu; cases hu
  · rintro ⟨s, f, hf, h0, rfl⟩
    exact C88_nan_violated s f hf h0

/-- The least integer, as a floating-point number, is rejected. -/
theorem C88_least_violated : ∃ e f, e < 2047 ∧ f < 2 ^ 52 ∧ IsFloor (scaled true e f) (-(2 ^ 63)) ∧
    getInteger (.float (pack true e f)) = .exception :=
  ⟨1086, 0, by decide +kernel, by decide +kernel, by unfold IsFloor; decide +kernel, by decide +kernel⟩

-- 2.5, -2.5, -0.0, the least positive number and the least negative one, the greatest in range, 2^63
example : getInteger (.float 0x4004000000000000) = .ok 2 := by decide +kernel
example : getInteger (.float 0xC004000000000000) = .ok (-3) := by decide +kernel
example : getInteger (.float 0x8000000000000000) = .ok 0 := by decide +kernel
example : getInteger (.float 1) = .ok 0 := by decide +kernel
example : getInteger (.float 0x8000000000000001) = .ok (-1) := by decide +kernel
example : getInteger (.float 0x43DFFFFFFFFFFFFF) = .ok 9223372036854774784 := by decide +kernel
example : getInteger (.float 0x43E0000000000000) = .exception := by decide +kernel
-- the value of 2.5 is 5 / 2
example : scaled false 1024 0x4000000000000 * 2 = 5 * 2 ^ 1074 ∧ pack false 1024 0x4000000000000 = 0x4004000000000000 := by decide +kernel

end Verif.GetInt
