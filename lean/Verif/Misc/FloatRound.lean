import Verif.Misc.FloatError
/-
The last rounding of `kos_parse_double` and the fields of the double which it returns.
-/
namespace Verif.Misc
open Spec

/-- core/kos_misc.c:469-475: 53 bits, rounded. -/
def round53 (m : Nat) : Nat :=
  (m >>> 11) + ((if (m % 2 ^ 32 &&& 0xFFF) ≠ 0x400 then m % 2 ^ 32 &&& 0x400 else 0) >>> 10)

theorem round53_spec (m : Nat) : round53 m * 2 ^ 11 ≤ m + 2 ^ 10 ∧ m ≤ round53 m * 2 ^ 11 + 2 ^ 10 := by
  unfold round53
  have h1 : m % 2 ^ 32 &&& 0xFFF = m % 4096 := by
    rw [show 0xFFF = 2 ^ 12 - 1 by rfl, Nat.and_two_pow_sub_one_eq_mod]; omega
  have h2 : m % 2 ^ 32 &&& 0x400 = if m % 2048 ≥ 1024 then 1024 else 0 := by
    have : ∀ x : Nat, x &&& 2 ^ 10 = if x.testBit 10 then 2 ^ 10 else 0 := by
      intro x
      apply Nat.eq_of_testBit_eq
      intro i
      rw [Nat.testBit_and, Nat.testBit_two_pow]
      by_cases hi : 10 = i
      · subst hi
        cases hb : x.testBit 10
        · simp
        · rfl
      · rw [decide_eq_false hi, Bool.and_false]
        cases hb : x.testBit 10
        · simp
        · simp only [if_true]; rw [Nat.testBit_two_pow, decide_eq_false hi]
    rw [show m % 2 ^ 32 &&& 0x400 = _ from this _, Nat.testBit_eq_decide_div_mod_eq]
    by_cases h : m % 2048 ≥ 1024
    · rw [if_pos h, decide_eq_true (by omega)]; rfl
    · rw [if_neg h, decide_eq_false (by omega)]; rfl
  rw [h1, h2, Nat.shiftRight_eq_div_pow, Nat.shiftRight_eq_div_pow]
  by_cases h : m % 4096 = 1024
  · rw [if_neg (by omega)]; omega
  · rw [if_pos h]; split <;> omega

theorem denormLoop_spec (n m : Nat) : denormLoop n m (-0x3FF - n) = (m >>> n, -0x3FF) := by
  induction n generalizing m with
  | zero => simp [denormLoop]
  | succ n ih =>
    rw [denormLoop, if_pos (by push_cast; omega)]
    by_cases h : m = 0
    · rw [if_neg (by omega), h]; simp
    · rw [if_pos h, show (-0x3FF - ((n + 1 : Nat) : Int) + 1) = -0x3FF - n by push_cast; omega, ih]
      rw [← Nat.shiftRight_add, Nat.add_comm 1 n]

theorem pack (sign : Bool) (E F : Nat) (hE : E < 2 ^ 11) (hF : F < 2 ^ 52) :
    ((if sign then 2 ^ 63 else 0) ||| (E <<< 52) ||| F) = (if sign then 2 ^ 63 else 0) + E * 2 ^ 52 + F := by
  have h1 : (if sign then 2 ^ 63 else 0) = (if sign then 2 ^ 11 else 0) <<< 52 := by cases sign <;> rfl
  have h2 : ((if sign then 2 ^ 11 else 0) ||| E) = (if sign then 2 ^ 11 else 0) + E := by
    cases sign
    · simp
    · simp only [if_true]
      have := Nat.two_pow_add_eq_or_of_lt hE 1
      simpa using this.symm
  rw [h1, ← Nat.shiftLeft_or_distrib, h2, ← Nat.shiftLeft_add_eq_or_of_lt hF]
  simp only [Nat.shiftLeft_eq]
  rw [Nat.add_mul]

theorem pack_fields (sign : Bool) (E F : Nat) (hE : E < 2 ^ 11) (hF : F < 2 ^ 52) :
    let bits := (if sign then 2 ^ 63 else 0) + E * 2 ^ 52 + F
    bits < 2 ^ 64 ∧ signBit bits = sign ∧ expField bits = E ∧ fracField bits = F := by
  intro bits
  have hb : bits = (if sign then 2 ^ 63 else 0) + E * 2 ^ 52 + F := rfl
  unfold signBit expField fracField
  rw [hb]
  cases sign
  · simp only [Bool.false_eq_true, if_false]
    refine ⟨by omega, by rw [decide_eq_false_iff_not]; omega, by omega, by omega⟩
  · simp only [if_true]
    refine ⟨by omega, by rw [decide_eq_true_iff]; omega, by omega, by omega⟩

/-- A double whose fields are known. -/
def Fields (r : DblRes) (sign : Bool) (E F : Nat) : Prop :=
  ∃ bits, r = .ok bits ∧ bits < 2 ^ 64 ∧ signBit bits = sign ∧ expField bits = E ∧ fracField bits = F

theorem fields_pack (sign : Bool) (E F : Nat) (hE : E < 2 ^ 11) (hF : F < 2 ^ 52) :
    Fields (.ok ((if sign then 2 ^ 63 else 0) ||| (E <<< 52) ||| F)) sign E F := by
  refine ⟨_, rfl, ?_⟩
  rw [pack sign E F hE hF]
  exact pack_fields sign E F hE hF

theorem testBit53 (M : Nat) (h : M ≤ 2 ^ 53) : M.testBit 53 = decide (M = 2 ^ 53) := by
  rw [Nat.testBit_eq_decide_div_mod_eq]
  congr 1
  apply propext
  omega

theorem roundMantissa_eq (m : Nat) (e : Int) (h : m ≠ 0) :
    roundMantissa m e = if (round53 m).testBit 53 then (round53 m >>> 1, e + 1) else (round53 m, e) := by
  unfold roundMantissa round53
  rw [if_pos h]

theorem assemble_normal (sign : Bool) (m : Nat) (e : Int) (hm : Norm m) (h1 : -1022 ≤ e) (h2 : e ≤ 1023) :
    ∃ M, (2 ^ 52 ≤ M ∧ M ≤ 2 ^ 53) ∧ (M * 2 ^ 11 ≤ m + 2 ^ 10 ∧ m ≤ M * 2 ^ 11 + 2 ^ 10) ∧
      (M < 2 ^ 53 → Fields (assemble sign m e) sign (e + 1023).toNat (M - 2 ^ 52)) ∧
      (M = 2 ^ 53 → Fields (assemble sign m e) sign (e + 1024).toNat 0) := by
  obtain ⟨hm1, hm2⟩ := hm
  have hr := round53_spec m
  refine ⟨round53 m, by omega, hr, ?_⟩
  have hne : m ≠ 0 := by omega
  have ha : assemble sign m e = .ok ((if sign then 2 ^ 63 else 0) ||| (((roundMantissa m e).2 + 0x3FF).toNat <<< 52) |||
      ((roundMantissa m e).1 &&& (2 ^ 52 - 1))) := by
    unfold assemble
    rw [if_neg (by omega), show (-0x3FF - e).toNat = 0 by omega, show denormLoop 0 m e = (m, e) from rfl]
    have h3 : ¬ e = -0x3FF := by omega
    simp only [if_neg h3, if_neg hne]
  rw [ha, roundMantissa_eq m e hne, testBit53 _ (by omega)]
  refine ⟨?_, ?_⟩
  · intro hlt
    rw [decide_eq_false (by omega)]
    simp only [Bool.false_eq_true, if_false]
    rw [Nat.and_two_pow_sub_one_eq_mod, show round53 m % 2 ^ 52 = round53 m - 2 ^ 52 by omega]
    exact fields_pack sign _ _ (by omega) (by omega)
  · intro heq
    rw [heq]
    simp only [decide_true, if_true]
    rw [Nat.and_two_pow_sub_one_eq_mod, show (2 ^ 53 >>> 1) % 2 ^ 52 = 0 by rfl, show (e + 1 + 0x3FF).toNat = (e + 1024).toNat by omega]
    exact fields_pack sign _ _ (by omega) (by omega)

theorem assemble_subnormal (sign : Bool) (m : Nat) (e : Int) (hm : Norm m) (h1 : e ≤ -1023) :
    ∃ M m', m' = m / 2 ^ ((-1023 - e).toNat + 1) ∧ M ≤ 2 ^ 52 ∧ (M * 2 ^ 11 ≤ m' + 2 ^ 10 ∧ m' ≤ M * 2 ^ 11 + 2 ^ 10) ∧
      Fields (assemble sign m e) sign 0 (M % 2 ^ 52) := by
  obtain ⟨hm1, hm2⟩ := hm
  obtain ⟨n, hn, hen⟩ : ∃ n : Nat, (-1023 - e).toNat = n ∧ e = -0x3FF - n := ⟨_, rfl, by omega⟩
  rw [hn]
  obtain ⟨m', hm'⟩ : ∃ m', m' = m / 2 ^ (n + 1) := ⟨_, rfl⟩
  have hsh : (m >>> n) >>> 1 = m' := by
    rw [← Nat.shiftRight_add, Nat.shiftRight_eq_div_pow, hm']
  have hlt : m' < 2 ^ 63 := by
    rw [hm']
    apply Nat.div_lt_of_lt_mul
    have : 1 ≤ 2 ^ n := Nat.one_le_two_pow
    rw [Nat.pow_succ 2 n]
    calc m < 2 ^ 64 := hm2
      _ = 1 * 2 * 2 ^ 63 := by norm_num
      _ ≤ 2 ^ n * 2 * 2 ^ 63 := Nat.mul_le_mul_right _ (Nat.mul_le_mul_right _ this)
  have hr := round53_spec m'
  refine ⟨round53 m', m', hm', by omega, hr, ?_⟩
  have ha : assemble sign m e = .ok ((if sign then 2 ^ 63 else 0) ||| (((roundMantissa m' (-0x3FF)).2 + 0x3FF).toNat <<< 52) |||
      ((roundMantissa m' (-0x3FF)).1 &&& (2 ^ 52 - 1))) := by
    unfold assemble
    rw [if_neg (by omega), show (-0x3FF - e).toNat = n by omega, hen, denormLoop_spec]
    simp only [if_true, hsh, ite_self]
  rw [ha]
  by_cases h0 : m' = 0
  · have : roundMantissa m' (-0x3FF) = (0, -0x3FF) := by unfold roundMantissa; rw [if_neg (by omega), h0]
    have h53 : round53 m' = 0 := by omega
    rw [this, h53]
    exact fields_pack sign 0 0 (by omega) (by omega)
  · rw [roundMantissa_eq m' _ h0, testBit53 _ (by omega), decide_eq_false (by omega)]
    simp only [Bool.false_eq_true, if_false]
    rw [Nat.and_two_pow_sub_one_eq_mod]
    exact fields_pack sign 0 _ (by omega) (Nat.mod_lt _ (by norm_num))

theorem assemble_zero (sign : Bool) : Fields (assemble sign 0 0) sign 0 0 := by
  have : assemble sign 0 0 = .ok ((if sign then 2 ^ 63 else 0) ||| (0 <<< 52) ||| 0) := by cases sign <;> rfl
  rw [this]
  exact fields_pack sign 0 0 (by omega) (by omega)

end Verif.Misc
