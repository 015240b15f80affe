import Verif.Misc.ParseDouble
/-
Facts about the arithmetic of `kos_parse_double`: a multiplication or division by ten is off by at most half a unit
in the last place of the 64-bit mantissa.
-/
namespace Verif.Misc

theorem and3 (m : Nat) : m &&& 7 = m % 8 := Nat.and_two_pow_sub_one_eq_mod m 3
theorem shr3 (m : Nat) : m >>> 3 = m / 8 := Nat.shiftRight_eq_div_pow m 3

theorem testBit63 (h : Nat) (hh : h < 2 ^ 64) : h.testBit 63 = decide (2 ^ 63 ≤ h) := by
  rw [Nat.testBit_eq_decide_div_mod_eq]
  congr 1
  apply propext
  omega

theorem testBit62 (h : Nat) (hh : h < 2 ^ 63) : h.testBit 62 = decide (2 ^ 62 ≤ h) := by
  rw [Nat.testBit_eq_decide_div_mod_eq]
  congr 1
  apply propext
  omega

theorem testBit61 (h : Nat) (hh : h < 2 ^ 62) : h.testBit 61 = decide (2 ^ 61 ≤ h) := by
  rw [Nat.testBit_eq_decide_div_mod_eq]
  congr 1
  apply propext
  omega

theorem shiftDigit_zero (e : Int) : shiftDigit 0 e = 0 := by
  unfold shiftDigit; simp

/-- Multiplication by ten, without a digit: the exponent grows by 3 or 4, the mantissa is off by at most half a unit. -/
theorem mulAdd_zero (m : Nat) (e : Int) (h1 : 2 ^ 63 ≤ m) (h2 : m < 2 ^ 64) :
    ∃ s : Nat, (s = 3 ∨ s = 4) ∧ (mulAdd m e 0).2 = e + s ∧ 2 ^ 63 ≤ (mulAdd m e 0).1 ∧ (mulAdd m e 0).1 < 2 ^ 64 ∧
      2 * ((mulAdd m e 0).1 * 2 ^ s) ≤ 20 * m + 2 ^ s ∧ 20 * m ≤ 2 * ((mulAdd m e 0).1 * 2 ^ s) + 2 ^ s := by
  unfold mulAdd
  rw [shiftDigit_zero, and3, shr3]
  obtain ⟨q, r, hq, hr, e1, e2⟩ : ∃ q r, m = 8 * q + r ∧ r < 8 ∧ m / 8 = q ∧ m % 8 = r := ⟨m / 8, m % 8, by omega, by omega, rfl, rfl⟩
  rw [e1, e2]
  have hlow : 5 * r < 40 := by omega
  have hs : (5 * r) >>> 3 = 5 * r / 8 := shr3 _
  have hhigh : (5 * q + (5 * r) >>> 3 + 0) % 2 ^ 64 = 5 * q + 5 * r / 8 := by rw [hs]; omega
  simp only [hhigh]
  rw [testBit63 _ (by omega)]
  by_cases hb : 2 ^ 63 ≤ 5 * q + 5 * r / 8
  · simp only [hb, decide_true, if_true]
    have hc : ((if (5 * r &&& 15) ≠ 4 then 5 * r &&& 4 else 0) >>> 2) = (if 4 < 5 * r % 8 ∨ (5 * r % 8 = 4 ∧ 8 ≤ 5 * r % 16) then 1 else 0) := by
      have : ∀ r : Fin 8, ((if (5 * r.val &&& 15) ≠ 4 then 5 * r.val &&& 4 else 0) >>> 2) =
        (if 4 < 5 * r.val % 8 ∨ (5 * r.val % 8 = 4 ∧ 8 ≤ 5 * r.val % 16) then 1 else 0) := by decide +kernel
      exact this ⟨r, hr⟩
    rw [hc]
    refine ⟨4, Or.inr rfl, by simp, ?_⟩
    rw [Nat.mod_eq_of_lt (by split <;> omega)]
    split <;> omega
  · simp only [hb, decide_false, Bool.false_eq_true, if_false]
    rw [testBit62 _ (by omega)]
    have hb2 : 2 ^ 62 ≤ 5 * q + 5 * r / 8 := by omega
    simp only [hb2, decide_true, if_true]
    have hc : (((5 * r) >>> 2) &&& 1) + ((if (5 * r &&& 7) ≠ 2 then 5 * r &&& 2 else 0) >>> 1) =
        (if 6 ≤ 5 * r % 8 then 2 else if 3 ≤ 5 * r % 8 then 1 else 0) := by
      have : ∀ r : Fin 8, (((5 * r.val) >>> 2) &&& 1) + ((if (5 * r.val &&& 7) ≠ 2 then 5 * r.val &&& 2 else 0) >>> 1) =
        (if 6 ≤ 5 * r.val % 8 then 2 else if 3 ≤ 5 * r.val % 8 then 1 else 0) := by decide +kernel
      exact this ⟨r, hr⟩
    rw [Nat.add_assoc, hc, Nat.shiftLeft_eq]
    refine ⟨3, Or.inl rfl, by simp, ?_⟩
    rw [Nat.mod_eq_of_lt (by split <;> (try split) <;> omega)]
    split <;> (try split) <;> omega

/-- The rounding of `divTen`: `low` without its lowest `g` bits, after the carry. -/
theorem carry_round (low : Nat) (g : Nat) :
    let carry := if (low &&& (2 ^ (g + 2) - 1)) ≠ 2 ^ g then low &&& 2 ^ g else 0
    2 ^ (g + 1) * ((low + carry) >>> (g + 1)) ≤ low + 2 ^ g ∧ low ≤ 2 ^ (g + 1) * ((low + carry) >>> (g + 1)) + 2 ^ g ∧ low + carry ≤ low + 2 ^ g := by
  intro carry
  have hbit : low &&& 2 ^ g = if low.testBit g then 2 ^ g else 0 := by
    apply Nat.eq_of_testBit_eq
    intro i
    rw [Nat.testBit_and, Nat.testBit_two_pow]
    by_cases hi : g = i
    · subst hi; cases h : low.testBit g <;> simp
    · simp only [hi, decide_false, Bool.and_false]
      split
      · rw [Nat.testBit_two_pow]; simp [hi]
      · simp
  have hdiv : low.testBit g = decide (low / 2 ^ g % 2 = 1) := Nat.testBit_eq_decide_div_mod_eq
  have hmod : low &&& (2 ^ (g + 2) - 1) = low % 2 ^ (g + 2) := Nat.and_two_pow_sub_one_eq_mod _ _
  have hp : 0 < 2 ^ g := Nat.two_pow_pos g
  have e1 : 2 ^ (g + 1) = 2 * 2 ^ g := by rw [Nat.pow_succ, Nat.mul_comm]
  have e2 : 2 ^ (g + 2) = 4 * 2 ^ g := by rw [Nat.pow_add]; omega
  rw [Nat.shiftRight_eq_div_pow]
  have hcase : (carry = 2 ^ g ∧ low / 2 ^ g % 2 = 1) ∨ (carry = 0 ∧ (low / 2 ^ g % 2 = 0 ∨ low % 2 ^ (g + 2) = 2 ^ g)) := by
    show ((if (low &&& (2 ^ (g + 2) - 1)) ≠ 2 ^ g then low &&& 2 ^ g else 0) = _ ∧ _) ∨ _
    rw [hmod]
    by_cases h : low % 2 ^ (g + 2) = 2 ^ g
    · right; refine ⟨?_, Or.inr h⟩
      show (if (low &&& (2 ^ (g + 2) - 1)) ≠ 2 ^ g then low &&& 2 ^ g else 0) = 0
      rw [hmod, if_neg (by simpa using h)]
    · rw [if_pos h, hbit]
      by_cases ht : low / 2 ^ g % 2 = 1
      · left; rw [hdiv]; simp [ht]
      · right
        refine ⟨?_, Or.inl (by omega)⟩
        show (if (low &&& (2 ^ (g + 2) - 1)) ≠ 2 ^ g then low &&& 2 ^ g else 0) = 0
        rw [hmod, if_pos h, hbit, hdiv]; simp [ht]
  generalize carry = c at hcase ⊢
  rw [e1] at *
  generalize hG : 2 ^ g = G at *
  have d1 := Nat.div_add_mod low (2 * G)
  have d2 := Nat.mod_lt low (show 0 < 2 * G by omega)
  have hlg : low / G = 2 * (low / (2 * G)) + (if G ≤ low % (2 * G) then 1 else 0) := by
    have : low = G * (2 * (low / (2 * G))) + low % (2 * G) := by
      rw [show G * (2 * (low / (2 * G))) = 2 * G * (low / (2 * G)) by rw [← Nat.mul_assoc, Nat.mul_comm G 2]]
      omega
    rw [this, Nat.mul_add_div hp]
    rw [← this]
    congr 1
    split
    · rename_i hge
      exact Nat.div_eq_of_lt_le (by omega) (by omega)
    · exact Nat.div_eq_of_lt (by omega)
  rcases hcase with ⟨rfl, hc⟩ | ⟨rfl, hc⟩
  · have hge : c ≤ low % (2 * c) := by
      rw [hlg] at hc
      split at hc
      · assumption
      · omega
    have : (low + c) / (2 * c) = low / (2 * c) + 1 := by
      apply Nat.div_eq_of_lt_le
      · rw [Nat.add_mul, Nat.mul_comm]; omega
      · rw [Nat.add_mul, Nat.add_mul, Nat.mul_comm (low / (2 * c))]; omega
    rw [this, Nat.mul_add]
    omega
  · have hle : low % (2 * G) ≤ G := by
      rcases hc with hc | hc
      · rw [hlg] at hc
        split at hc
        · omega
        · omega
      · have : low % (2 * G) = G := by
          rw [e2] at hc
          have : low % (2 * G) = low % (4 * G) % (2 * G) := by
            rw [Nat.mod_mod_of_dvd]; exact ⟨2, by omega⟩
          rw [this, hc, Nat.mod_eq_of_lt (by omega)]
        omega
    rw [Nat.add_zero]
    omega

/-- Division by ten: the exponent falls by 3 or 4, the mantissa is off by at most half a unit, no assertion fails. -/
theorem divTen_spec (m : Nat) (e : Int) (h1 : 2 ^ 63 ≤ m) (h2 : m < 2 ^ 64) :
    ∃ (m' s : Nat), (s = 3 ∨ s = 4) ∧ divTen m e = some (m', e - s) ∧ 2 ^ 63 ≤ m' ∧ m' < 2 ^ 64 ∧
      10 * m' ≤ 2 ^ s * m + 5 ∧ 2 ^ s * m ≤ 10 * m' + 5 := by
  obtain ⟨a, ρ, L, hL, hρ, hm, hH⟩ : ∃ a ρ L, L < 2 ^ 32 ∧ ρ < 5 ∧ m = (5 * a + ρ) * 2 ^ 32 + L ∧ m / 2 ^ 32 = 5 * a + ρ :=
    ⟨m / 2 ^ 32 / 5, m / 2 ^ 32 % 5, m % 2 ^ 32, by omega, by omega, by omega, by omega⟩
  have hhigh : (m >>> 32 <<< 32) / 5 = a * 2 ^ 32 + ρ * 2 ^ 32 / 5 := by
    rw [Nat.shiftRight_eq_div_pow, Nat.shiftLeft_eq, hH]; omega
  have hlo : (m <<< 32) % 2 ^ 64 = L * 2 ^ 32 := by
    rw [Nat.shiftLeft_eq]; omega
  have hhh : (a * 2 ^ 32 + ρ * 2 ^ 32 / 5) % 2 ^ 32 = ρ * 2 ^ 32 / 5 := by omega
  have hlow : (L * 2 ^ 32 / 5 + ρ * 2 ^ 32 / 5) % 2 ^ 64 = L * 2 ^ 32 / 5 + ρ * 2 ^ 32 / 5 := by omega
  obtain ⟨y, hy, l1, l1'⟩ : ∃ y, L * 2 ^ 32 / 5 = y ∧ 5 * y ≤ L * 2 ^ 32 ∧ L * 2 ^ 32 ≤ 5 * y + 4 :=
    ⟨_, rfl, by omega, by omega⟩
  obtain ⟨z, hz, l2⟩ : ∃ z, ρ * 2 ^ 32 / 5 = z ∧ 5 * z + ρ = ρ * 2 ^ 32 := ⟨_, rfl, by omega⟩
  unfold divTen
  rw [hhigh, hlo]
  simp only
  rw [hhh, hlow]
  rw [hy, hz]
  rw [hz] at hhigh hhh hlow
  rw [hy] at hlow
  rw [Nat.shiftRight_eq_div_pow _ 62, if_neg (by omega)]
  rw [testBit61 _ (by omega)]
  have c1 := carry_round (y + z) 29
  have c2 := carry_round (y + z) 28
  simp only [] at c1
  simp only [] at c2
  have hyb : y < 2 ^ 62 := by omega
  have hzb : z < 2 ^ 32 := by omega
  by_cases hb : 2 ^ 61 ≤ a * 2 ^ 32 + z
  · simp only [hb, decide_true, if_true]
    change 2 ^ 30 * ((y + z + if (y + z &&& 0x7FFFFFFF) ≠ 0x20000000 then y + z &&& 0x20000000 else 0) >>> 30) ≤ _ ∧
      _ ≤ 2 ^ 30 * ((y + z + if (y + z &&& 0x7FFFFFFF) ≠ 0x20000000 then y + z &&& 0x20000000 else 0) >>> 30) + _ ∧
      (y + z + if (y + z &&& 0x7FFFFFFF) ≠ 0x20000000 then y + z &&& 0x20000000 else 0) ≤ _ at c1
    generalize (if (y + z &&& 0x7FFFFFFF) ≠ 0x20000000 then y + z &&& 0x20000000 else 0) = c at *
    rw [Nat.mod_eq_of_lt (show y + z + c < 2 ^ 64 by omega)]
    generalize (y + z + c) >>> 30 = t at *
    have ht : t < 2 ^ 34 := by omega
    rw [Nat.shiftLeft_eq, Nat.mod_eq_of_lt (show (a * 2 ^ 32 + z) * 2 ^ 2 + t < 2 ^ 64 by omega)]
    rw [testBit63 _ (by omega), decide_eq_true (by omega), if_pos rfl]
    exact ⟨_, 3, Or.inl rfl, rfl, by omega, by omega, by omega, by omega⟩
  · simp only [hb, decide_false, Bool.false_eq_true, if_false]
    change 2 ^ 29 * ((y + z + if (y + z &&& 0x3FFFFFFF) ≠ 0x10000000 then y + z &&& 0x10000000 else 0) >>> 29) ≤ _ ∧
      _ ≤ 2 ^ 29 * ((y + z + if (y + z &&& 0x3FFFFFFF) ≠ 0x10000000 then y + z &&& 0x10000000 else 0) >>> 29) + _ ∧
      (y + z + if (y + z &&& 0x3FFFFFFF) ≠ 0x10000000 then y + z &&& 0x10000000 else 0) ≤ _ at c2
    generalize (if (y + z &&& 0x3FFFFFFF) ≠ 0x10000000 then y + z &&& 0x10000000 else 0) = c at *
    rw [Nat.mod_eq_of_lt (show y + z + c < 2 ^ 64 by omega)]
    generalize (y + z + c) >>> 29 = t at *
    have ht : t < 2 ^ 35 := by omega
    have ha : 5 * a + ρ < 5 * 2 ^ 29 := by omega
    rw [Nat.shiftLeft_eq, Nat.mod_eq_of_lt (show (a * 2 ^ 32 + z) * 2 ^ 3 + t < 2 ^ 64 by omega)]
    rw [testBit63 _ (by omega), decide_eq_true (by omega), if_pos rfl]
    exact ⟨_, 4, Or.inr rfl, rfl, by omega, by omega, by omega, by omega⟩

/-- While everything fits, a digit is appended exactly. -/
theorem mulAdd_exact (N e d : Nat) (he : e ≤ 57) (h1 : 2 ^ e ≤ N) (h2 : N < 2 ^ (e + 1)) (hd : d ≤ 10) :
    ∃ e' : Nat, e + 3 ≤ e' ∧ e' ≤ e + 4 ∧ mulAdd (N * 2 ^ (63 - e)) e d = ((10 * N + d) * 2 ^ (63 - e'), (e' : Int)) ∧
      2 ^ e' ≤ 10 * N + d ∧ 10 * N + d < 2 ^ (e' + 1) := by
  obtain ⟨K, hK⟩ : ∃ K, K = 2 ^ (59 - e) := ⟨_, rfl⟩
  have hK0 : 0 < K := by rw [hK]; exact Nat.two_pow_pos _
  have hKe : 2 ^ e * K = 2 ^ 59 := by rw [hK, ← Nat.pow_add]; congr 1; omega
  have hm : N * 2 ^ (63 - e) = 8 * (2 * (N * K)) := by
    rw [show 63 - e = (59 - e) + 4 by omega, Nat.pow_add, ← hK]
    rw [← Nat.mul_assoc]; omega
  have hsh : shiftDigit d (e : Int) = d * K := by
    unfold shiftDigit
    simp only
    rw [if_pos (by omega), show (59 - (e : Int)).toNat = 59 - e by omega, Nat.shiftLeft_eq, ← hK, Nat.mod_eq_of_lt]
    have : K ≤ 2 ^ 59 := by rw [hK]; exact Nat.pow_le_pow_right (by omega) (by omega)
    calc d * K ≤ 10 * 2 ^ 59 := Nat.mul_le_mul hd this
      _ < 2 ^ 64 := by omega
  have hlo : 2 ^ 59 ≤ N * K := by rw [← hKe]; exact Nat.mul_le_mul_right K h1
  have hhi : (N + 1) * K ≤ 2 ^ 60 := by
    have : (N + 1) * K ≤ 2 ^ (e + 1) * K := Nat.mul_le_mul_right K h2
    rw [Nat.pow_succ, Nat.mul_assoc, Nat.mul_comm 2 K, ← Nat.mul_assoc, hKe] at this
    omega
  rw [Nat.add_mul] at hhi
  have hdK : d * K ≤ 10 * K := Nat.mul_le_mul_right K hd
  have hA : (10 * N + d) * K = 10 * (N * K) + d * K := by rw [Nat.add_mul, Nat.mul_assoc]
  have hhigh : (5 * (2 * (N * K)) + 0 + d * K) % 2 ^ 64 = (10 * N + d) * K := by rw [hA]; omega
  unfold mulAdd
  rw [hsh, hm, and3, shr3, show 8 * (2 * (N * K)) / 8 = 2 * (N * K) by omega, show 8 * (2 * (N * K)) % 8 = 0 by omega]
  simp only [Nat.mul_zero, Nat.zero_shiftRight, Nat.zero_and]
  rw [hhigh, testBit63 _ (by omega)]
  by_cases hb : 2 ^ 63 ≤ (10 * N + d) * K
  · simp only [hb, decide_true, if_true]
    refine ⟨e + 4, by omega, by omega, ?_, ?_, ?_⟩
    · rw [show 63 - (e + 4) = 59 - e by omega, ← hK]
      simp only [ite_self, Nat.zero_shiftRight, Nat.add_zero]
      rw [Nat.mod_eq_of_lt (by omega)]
      simp
    · refine Nat.le_of_mul_le_mul_right ?_ hK0
      rw [Nat.pow_add, Nat.mul_assoc, Nat.mul_comm (2 ^ 4), ← Nat.mul_assoc, hKe]; omega
    · refine Nat.lt_of_mul_lt_mul_right (a := K) ?_
      rw [Nat.add_assoc, Nat.pow_add, Nat.mul_assoc, Nat.mul_comm (2 ^ (4 + 1)), ← Nat.mul_assoc, hKe]; omega
  · simp only [hb, decide_false, Bool.false_eq_true, if_false]
    rw [testBit62 _ (by omega), decide_eq_true (by omega), if_pos rfl]
    refine ⟨e + 3, by omega, by omega, ?_, ?_, ?_⟩
    · rw [show 63 - (e + 3) = (59 - e) + 1 by omega, Nat.pow_succ 2 (59 - e), ← hK, ← Nat.mul_assoc, Nat.shiftLeft_eq]
      simp only [ite_self, Nat.zero_shiftRight, Nat.add_zero]
      rw [Nat.mod_eq_of_lt (by omega)]
      simp
    · refine Nat.le_of_mul_le_mul_right ?_ hK0
      rw [Nat.pow_add, Nat.mul_assoc, Nat.mul_comm (2 ^ 3), ← Nat.mul_assoc, hKe]; omega
    · refine Nat.lt_of_mul_lt_mul_right (a := K) ?_
      rw [Nat.add_assoc, Nat.pow_add, Nat.mul_assoc, Nat.mul_comm (2 ^ (3 + 1)), ← Nat.mul_assoc, hKe]; omega

open Spec

/-- The values of the digits in a text. -/
abbrev digs (s : List Nat) : List Nat := s.filterMap (digitVal .dec)

theorem digs_digit (c : Nat) (s : List Nat) (h : 48 ≤ c ∧ c ≤ 57) : digs (c :: s) = (c - 48) :: digs s := by
  simp [digs, digitVal, h]

theorem digs_other (c : Nat) (s : List Nat) (h : ¬ (48 ≤ c ∧ c ≤ 57)) : digs (c :: s) = digs s := by
  simp only [digs, digitVal, List.filterMap_cons, if_neg h]

theorem digs_lt (s : List Nat) : ∀ d ∈ digs s, d < 10 := by
  intro d hd
  obtain ⟨c, _, hc⟩ := List.mem_filterMap.1 hd
  simp only [digitVal] at hc
  split at hc
  · cases hc; omega
  · cases hc

theorem positional10_lt (ds : List Nat) (h : ∀ d ∈ ds, d < 10) : positional 10 ds < 10 ^ ds.length := by
  induction ds with
  | nil => simp [positional]
  | cons d ds ih =>
    have := ih (fun x hx => h x (List.mem_cons_of_mem _ hx))
    have hd := h d List.mem_cons_self
    simp only [positional, List.length_cons, Nat.pow_succ]
    have : d * 10 ^ ds.length ≤ 9 * 10 ^ ds.length := Nat.mul_le_mul_right _ (by omega)
    omega

/-- A character of the number before its exponent. -/
def BodyCh (c : Nat) : Prop := c = 95 ∨ c = 46 ∨ (48 ≤ c ∧ c ≤ 57)

/-- The digits: up to where precision is lost they are taken exactly, the rest is off by less than one part in 2^55. -/
theorem digitLoop_spec (num : Nat) : ∀ (s : List Nat) (N e i : Nat) (dexp : Int), (∀ c ∈ s, BodyCh c) → e ≤ 57 → 2 ^ e ≤ N → N < 2 ^ (e + 1) →
    num = i + (digs s).length →
    ∃ A e' j : Nat, digitLoop num s (N * 2 ^ (63 - e)) e i dexp = (A * 2 ^ (63 - e'), (e' : Int), dexp + j) ∧ e' ≤ 61 ∧
      2 ^ e' ≤ A ∧ A < 2 ^ (e' + 1) ∧ j ≤ (digs s).length ∧
      (N * 10 ^ (digs s).length + positional 10 (digs s)) * 2 ^ 55 ≤ A * 10 ^ j * (2 ^ 55 + 1) ∧
      A * 10 ^ j * (2 ^ 55 - 1) ≤ (N * 10 ^ (digs s).length + positional 10 (digs s)) * 2 ^ 55 := by
  intro s
  induction s with
  | nil =>
    intro N e i dexp _ he h1 h2 hn
    refine ⟨N, e, 0, by simp [digitLoop], by omega, h1, h2, by simp, ?_, ?_⟩ <;> simp [digs, positional] <;> omega
  | cons c s ih =>
    intro N e i dexp hc he h1 h2 hn
    have hs : ∀ x ∈ s, BodyCh x := fun x hx => hc x (List.mem_cons_of_mem _ hx)
    have hm0 : N * 2 ^ (63 - e) ≠ 0 := by
      have := Nat.two_pow_pos e
      exact Nat.mul_ne_zero (by omega) (Nat.ne_of_gt (Nat.two_pow_pos _))
    by_cases hsep : c = 95 ∨ c = 46
    · have hd : ¬ (48 ≤ c ∧ c ≤ 57) := by omega
      rw [digs_other c s hd] at hn ⊢
      simp only [digitLoop, if_pos hsep]
      exact ih N e i dexp hs he h1 h2 hn
    · have hd : 48 ≤ c ∧ c ≤ 57 := by
        rcases hc c List.mem_cons_self with h | h | h
        · exact absurd (Or.inl h) hsep
        · exact absurd (Or.inr h) hsep
        · exact h
      rw [digs_digit c s hd] at hn ⊢
      simp only [List.length_cons, positional] at hn ⊢
      simp only [digitLoop, if_neg hsep, if_neg hm0]
      have hP := positional10_lt (digs s) (digs_lt s)
      generalize positional 10 (digs s) = P at *
      have hT : 0 < 10 ^ (digs s).length := Nat.pow_pos (by omega)
      by_cases hl : (e : Int) > 53
      · rw [if_pos hl]
        have hN : 2 ^ 54 ≤ N := Nat.le_trans (Nat.pow_le_pow_right (by omega) (by omega)) h1
        obtain ⟨e', g1, g2, g3, g4, g5⟩ := mulAdd_exact N e (if c - 48 ≥ 5 then 10 else 5) he h1 h2 (by split <;> omega)
        rw [g3]
        refine ⟨10 * N + (if c - 48 ≥ 5 then 10 else 5), e', (digs s).length, ?_, by omega, g4, g5, by omega, ?_, ?_⟩
        · simp only [Prod.mk.injEq, true_and]; omega
        · rw [Nat.pow_succ 10]
          generalize 10 ^ (digs s).length = T at *
          have hx : N * (T * 10) + ((c - 48) * T + P) ≤ (10 * N + (if c - 48 ≥ 5 then 10 else 5)) * T := by
            have e1 : N * (T * 10) = 10 * (N * T) := by rw [Nat.mul_comm T, ← Nat.mul_assoc, Nat.mul_comm N, Nat.mul_assoc]
            have e2 : (10 * N + (if c - 48 ≥ 5 then 10 else 5)) * T = 10 * (N * T) + (if c - 48 ≥ 5 then 10 else 5) * T := by
              rw [Nat.add_mul, Nat.mul_assoc]
            rw [e1, e2]
            split
            · have : (c - 48) * T ≤ 9 * T := Nat.mul_le_mul_right _ (by omega)
              omega
            · have : (c - 48) * T ≤ 4 * T := Nat.mul_le_mul_right _ (by omega)
              omega
          generalize (10 * N + (if c - 48 ≥ 5 then 10 else 5)) * T = X at *
          omega
        · rw [Nat.pow_succ 10]
          generalize 10 ^ (digs s).length = T at *
          have e1 : N * (T * 10) = 10 * (N * T) := by rw [Nat.mul_comm T, ← Nat.mul_assoc, Nat.mul_comm N, Nat.mul_assoc]
          have e2 : (10 * N + (if c - 48 ≥ 5 then 10 else 5)) * T = 10 * (N * T) + (if c - 48 ≥ 5 then 10 else 5) * T := by
            rw [Nat.add_mul, Nat.mul_assoc]
          have hNT : 2 ^ 54 * T ≤ N * T := Nat.mul_le_mul_right _ hN
          rw [e1, e2]
          split
          · have : 5 * T ≤ (c - 48) * T := Nat.mul_le_mul_right _ (by omega)
            omega
          · omega
      · rw [if_neg hl]
        obtain ⟨e', g1, g2, g3, g4, g5⟩ := mulAdd_exact N e (c - 48) he h1 h2 (by omega)
        rw [g3]
        obtain ⟨A, e'', j, k1, k2, k3, k4, k5, k6, k7⟩ := ih (10 * N + (c - 48)) e' (i + 1) dexp hs (by omega) g4 g5 (by omega)
        refine ⟨A, e'', j, k1, k2, k3, k4, by omega, ?_, ?_⟩
        · rw [show N * 10 ^ ((digs s).length + 1) + ((c - 48) * 10 ^ (digs s).length + P) =
            (10 * N + (c - 48)) * 10 ^ (digs s).length + P by
              rw [Nat.pow_succ, Nat.add_mul, Nat.mul_comm (10 ^ (digs s).length), ← Nat.mul_assoc, Nat.mul_comm N]; omega]
          exact k6
        · rw [show N * 10 ^ ((digs s).length + 1) + ((c - 48) * 10 ^ (digs s).length + P) =
            (10 * N + (c - 48)) * 10 ^ (digs s).length + P by
              rw [Nat.pow_succ, Nat.add_mul, Nat.mul_comm (10 ^ (digs s).length), ← Nat.mul_assoc, Nat.mul_comm N]; omega]
          exact k7

theorem firstDigit_spec (d : Nat) (h1 : 1 ≤ d) (h2 : d ≤ 9) :
    ∃ e : Nat, e ≤ 3 ∧ firstDigit d 0 = (d * 2 ^ (63 - e), (e : Int)) ∧ 2 ^ e ≤ d ∧ d < 2 ^ (e + 1) := by
  have : d = 1 ∨ d = 2 ∨ d = 3 ∨ d = 4 ∨ d = 5 ∨ d = 6 ∨ d = 7 ∨ d = 8 ∨ d = 9 := by omega
  rcases this with rfl | rfl | rfl | rfl | rfl | rfl | rfl | rfl | rfl
  · exact ⟨0, by decide +kernel⟩
  · exact ⟨1, by decide +kernel⟩
  · exact ⟨1, by decide +kernel⟩
  · exact ⟨2, by decide +kernel⟩
  · exact ⟨2, by decide +kernel⟩
  · exact ⟨2, by decide +kernel⟩
  · exact ⟨2, by decide +kernel⟩
  · exact ⟨3, by decide +kernel⟩
  · exact ⟨3, by decide +kernel⟩

/-- From the first digit on, which is not zero. -/
theorem digitLoop_start (num c : Nat) (s : List Nat) (dexp : Int) (hc : 49 ≤ c ∧ c ≤ 57) (hs : ∀ c ∈ s, BodyCh c)
    (hn : num = (digs (c :: s)).length) :
    ∃ A e' j : Nat, digitLoop num (c :: s) 0 0 0 dexp = (A * 2 ^ (63 - e'), (e' : Int), dexp + j) ∧ e' ≤ 61 ∧
      2 ^ e' ≤ A ∧ A < 2 ^ (e' + 1) ∧ j ≤ (digs (c :: s)).length ∧
      positional 10 (digs (c :: s)) * 2 ^ 55 ≤ A * 10 ^ j * (2 ^ 55 + 1) ∧
      A * 10 ^ j * (2 ^ 55 - 1) ≤ positional 10 (digs (c :: s)) * 2 ^ 55 := by
  obtain ⟨e, h1, h2, h3, h4⟩ := firstDigit_spec (c - 48) (by omega) (by omega)
  rw [digs_digit c s (by omega)] at hn ⊢
  simp only [List.length_cons, positional] at hn ⊢
  simp only [digitLoop, if_neg (show ¬ (c = 95 ∨ c = 46) by omega), if_true]
  rw [h2]
  obtain ⟨A, e', j, k⟩ := digitLoop_spec num s (c - 48) e (0 + 1) dexp hs (by omega) h3 h4 (by omega)
  exact ⟨A, e', j, k.1, k.2.1, k.2.2.1, k.2.2.2.1, by have := k.2.2.2.2.1; omega, k.2.2.2.2.2⟩

end Verif.Misc
