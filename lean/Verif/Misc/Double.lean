/-
Division of positive doubles: the nearest number with 53 significant bits, ties to even (IEEE 754, round to nearest).

A positive double is `m * 2 ^ e`.  Overflow, denormal numbers, zero and signs are left out.
-/
namespace Verif.Dbl

/-- `a / b` rounded to the nearest integer, ties to even. -/
def halfEven (a b : Nat) : Nat :=
  if 2 * (a % b) < b then a / b
  else if b < 2 * (a % b) then a / b + 1
  else if a / b % 2 = 0 then a / b else a / b + 1

/-- Floor of the binary logarithm of `p / q`. -/
def expo (p q : Nat) : Int :=
  let k : Int := (p.log2 : Int) - q.log2
  if q * 2 ^ k.toNat ≤ p * 2 ^ (-k).toNat then k else k - 1

/-- `p / q` rounded to 53 significant bits: mantissa and exponent. -/
def rn (p q : Nat) : Nat × Int :=
  let e := expo p q - 52
  (halfEven (p * 2 ^ (-e).toNat) (q * 2 ^ e.toNat), e)

/-- Quotient of a positive integer below 2^53, which is a double, and a double. -/
def divide (d : Nat) (c : Nat × Int) : Nat × Int := rn (d * 2 ^ (-c.2).toNat) (c.1 * 2 ^ c.2.toNat)

/-- `floor` -/
def floor (x : Nat × Int) : Nat := x.1 * 2 ^ x.2.toNat / 2 ^ (-x.2).toNat

theorem halfEven_spec (a b : Nat) (hb : 0 < b) : 2 * a ≤ 2 * (halfEven a b * b) + b ∧ 2 * (halfEven a b * b) ≤ 2 * a + b := by
  have h := Nat.div_add_mod a b
  have hm := Nat.mod_lt a hb
  have hc : b * (a / b) = a / b * b := Nat.mul_comm ..
  unfold halfEven
  split
  · omega
  · split
    · rw [Nat.add_mul]; omega
    · split
      · omega
      · rw [Nat.add_mul]; omega

theorem expo_le (p q : Nat) (n : Nat) (hp : 0 < p) (h : p < q * 2 ^ n) : expo p q < n := by
  have hp1 := Nat.log2_self_le (n := p) (by omega)
  have hq1 := Nat.lt_log2_self (n := q)
  unfold expo
  simp only
  have key : ∀ k : Nat, (n : Int) ≤ k → ¬ (q * 2 ^ k ≤ p) := by
    intro k hk hle
    have : q * 2 ^ n ≤ q * 2 ^ k := Nat.mul_le_mul_left _ (Nat.pow_le_pow_right (by omega) (by omega))
    omega
  split
  · rename_i hle
    refine Int.not_le.1 fun hn => ?_
    refine key ((p.log2 : Int) - q.log2).toNat (by omega) ?_
    have e : (-((p.log2 : Int) - q.log2)).toNat = 0 := by omega
    rw [e] at hle
    simpa using hle
  · refine Int.not_le.1 fun hn => ?_
    have hlog : q.log2 + 1 + n ≤ p.log2 := by omega
    have h1 : 2 ^ (q.log2 + 1 + n) ≤ p := Nat.le_trans (Nat.pow_le_pow_right (by omega) hlog) hp1
    rw [Nat.pow_add] at h1
    have h2 : q * 2 ^ n ≤ 2 ^ (q.log2 + 1) * 2 ^ n := Nat.mul_le_mul_right _ (by omega)
    omega

theorem scale_le (p q x y : Nat) (k : Int) (h : k = (x : Int) - y) :
    q * 2 ^ k.toNat ≤ p * 2 ^ (-k).toNat ↔ q * 2 ^ x ≤ p * 2 ^ y := by
  rcases Nat.le_total x y with hxy | hxy
  · have e1 : k.toNat = 0 := by omega
    obtain ⟨d, rfl⟩ : ∃ d, y = x + d := ⟨y - x, by omega⟩
    have e2 : (-k).toNat = d := by omega
    rw [e1, e2, Nat.pow_zero, Nat.mul_one, Nat.pow_add, Nat.mul_comm (2 ^ x), ← Nat.mul_assoc]
    exact (Nat.mul_le_mul_right_iff (Nat.two_pow_pos x)).symm
  · have e1 : (-k).toNat = 0 := by omega
    obtain ⟨d, rfl⟩ : ∃ d, x = y + d := ⟨x - y, by omega⟩
    have e2 : k.toNat = d := by omega
    rw [e1, e2, Nat.pow_zero, Nat.mul_one, Nat.pow_add, Nat.mul_comm (2 ^ y), ← Nat.mul_assoc]
    exact (Nat.mul_le_mul_right_iff (Nat.two_pow_pos y)).symm

/-- `expo p q` is the floor of the binary logarithm: `2^k <= p / q < 2^(k + 1)`. -/
theorem expo_spec (p q : Nat) (hp : 0 < p) (hq : 0 < q) :
    q * 2 ^ (expo p q).toNat ≤ p * 2 ^ (-expo p q).toNat ∧ ¬ q * 2 ^ (expo p q + 1).toNat ≤ p * 2 ^ (-(expo p q + 1)).toNat := by
  have hp1 := Nat.log2_self_le (n := p) (by omega)
  have hp2 := Nat.lt_log2_self (n := p)
  have hq1 := Nat.log2_self_le (n := q) (by omega)
  have hq2 := Nat.lt_log2_self (n := q)
  unfold expo
  simp only
  split
  · rename_i hle
    refine ⟨hle, ?_⟩
    rw [scale_le p q (p.log2 + 1) q.log2 _ (by omega)]
    intro h
    have h1 : p * 2 ^ q.log2 < 2 ^ (p.log2 + 1) * 2 ^ q.log2 := Nat.mul_lt_mul_of_pos_right hp2 (Nat.two_pow_pos _)
    have h2 : 2 ^ q.log2 * 2 ^ (p.log2 + 1) ≤ q * 2 ^ (p.log2 + 1) := Nat.mul_le_mul_right _ hq1
    rw [Nat.mul_comm (2 ^ (p.log2 + 1))] at h1
    omega
  · rename_i hle
    refine ⟨?_, ?_⟩
    · rw [scale_le p q p.log2 (q.log2 + 1) _ (by omega)]
      have h1 : q * 2 ^ p.log2 ≤ 2 ^ (q.log2 + 1) * 2 ^ p.log2 := Nat.mul_le_mul_right _ (by omega)
      have h2 : 2 ^ p.log2 * 2 ^ (q.log2 + 1) ≤ p * 2 ^ (q.log2 + 1) := Nat.mul_le_mul_right _ hp1
      rw [Nat.mul_comm (2 ^ (q.log2 + 1))] at h1
      omega
    · rw [Int.sub_add_cancel]; exact hle

/-- The mantissa has 53 bits, or is 2^53 after rounding up. -/
theorem rn_mantissa (p q : Nat) (hp : 0 < p) (hq : 0 < q) : 2 ^ 52 ≤ (rn p q).1 ∧ (rn p q).1 ≤ 2 ^ 53 := by
  obtain ⟨h1, h2⟩ := expo_spec p q hp hq
  simp only [rn]
  generalize expo p q = k at *
  obtain ⟨x, y, hx, hy, hk⟩ : ∃ x y : Nat, (k - 52).toNat = x ∧ (-(k - 52)).toNat = y ∧ k - 52 = (x : Int) - y := ⟨_, _, rfl, rfl, by omega⟩
  rw [hx, hy]
  rw [scale_le p q (x + 52) y _ (by omega)] at h1
  rw [scale_le p q (x + 53) y _ (by omega)] at h2
  have hb : 0 < q * 2 ^ x := Nat.mul_pos hq (Nat.two_pow_pos x)
  have hs := halfEven_spec (p * 2 ^ y) (q * 2 ^ x) hb
  have e1 : q * 2 ^ (x + 52) = 2 ^ 52 * (q * 2 ^ x) := by rw [Nat.pow_add, ← Nat.mul_assoc, Nat.mul_comm]
  have e2 : q * 2 ^ (x + 53) = 2 ^ 53 * (q * 2 ^ x) := by rw [Nat.pow_add, ← Nat.mul_assoc, Nat.mul_comm]
  rw [e1] at h1
  rw [e2] at h2
  generalize q * 2 ^ x = b at *
  generalize p * 2 ^ y = a at *
  generalize halfEven a b = m at *
  constructor
  · refine Nat.le_of_not_lt fun hlt => ?_
    have : (m + 1) * b ≤ 2 ^ 52 * b := Nat.mul_le_mul_right b (by omega)
    rw [Nat.add_mul] at this
    omega
  · refine Nat.le_of_not_lt fun hlt => ?_
    have : (2 ^ 53 + 1) * b ≤ m * b := Nat.mul_le_mul_right b (by omega)
    rw [Nat.add_mul] at this
    omega

/-- If the quotient is below 2^52 then the floor of the rounded quotient is that of a number within one half of it. -/
theorem floor_rn (p q : Nat) (hp : 0 < p) (hq : 0 < q) (h : p < q * 2 ^ 53) :
    2 * (floor (rn p q) * q) ≤ 2 * p + q ∧ 2 * p < 2 * ((floor (rn p q) + 1) * q) + q := by
  have he := expo_le p q 53 hp h
  simp only [rn, floor]
  generalize hk : expo p q - 52 = e
  have e0 : e.toNat = 0 := by omega
  generalize hm : (-e).toNat = k
  rw [e0, Nat.pow_zero, Nat.mul_one, Nat.mul_one]
  have hs := halfEven_spec (p * 2 ^ k) q hq
  generalize halfEven (p * 2 ^ k) q = m at hs ⊢
  have hK : 0 < 2 ^ k := Nat.two_pow_pos k
  generalize 2 ^ k = K at hs hK ⊢
  have hd := Nat.div_add_mod m K
  have hr := Nat.mod_lt m hK
  generalize m / K = f at hd ⊢
  generalize m % K = r at hd hr
  subst hd
  constructor
  · refine Nat.le_of_mul_le_mul_right (c := K) ?_ hK
    have a1 : (K * f + r) * q = K * f * q + r * q := Nat.add_mul ..
    have a2 : 2 * (f * q) * K = 2 * (K * f * q) := by rw [Nat.mul_assoc, Nat.mul_comm (f * q) K, Nat.mul_assoc K]
    have a3 : (2 * p + q) * K = 2 * (p * K) + q * K := by rw [Nat.add_mul, Nat.mul_assoc]
    have a4 : q ≤ q * K := Nat.le_mul_of_pos_right _ hK
    omega
  · refine Nat.lt_of_mul_lt_mul_right (a := K) ?_
    have a1 : (K * f + r) * q = K * f * q + r * q := Nat.add_mul ..
    have a2 : (2 * ((f + 1) * q) + q) * K = 2 * (K * f * q) + 2 * (K * q) + q * K := by
      rw [Nat.add_mul, Nat.mul_assoc, Nat.add_mul f, Nat.one_mul, Nat.add_mul (f * q), Nat.mul_comm (f * q) K, Nat.mul_assoc K, Nat.mul_comm q K]; omega
    have a3 : r * q + q ≤ K * q := by
      have := Nat.mul_le_mul_right q (show r + 1 ≤ K by omega)
      rw [Nat.add_mul, Nat.one_mul] at this
      exact this
    have a5 : 2 * p * K = 2 * (p * K) := Nat.mul_assoc ..
    have a6 : q * K = K * q := Nat.mul_comm ..
    have a4 : q ≤ q * K := Nat.le_mul_of_pos_right _ hK
    omega

end Verif.Dbl
