import Verif.Vm.IntOps
/-! C11: shift operators. -/
namespace Verif.Vm

/-- Reduction of an integer to the signed 64-bit range (two's complement wrap-around). -/
def Spec.wrap64 (x : Int) : Int := (x + 2^63) % 2^64 - 2^63

/-- Multiplication by `2^n` modulo `2^64`. -/
def Spec.mulPow (a : Int) (n : Nat) : Int := Spec.wrap64 (a * 2^n)
/-- Flooring division by `2^n`. -/
def Spec.floorPow (a : Int) (n : Nat) : Int := Int.fdiv a (2^n)
/-- Division by `2^n` of the unsigned 64-bit reading of `a`, read back as signed. -/
def Spec.unsignedPow (a : Int) (n : Nat) : Int := Spec.wrap64 ((a % 2^64) / 2^n)

/-- `a << n` -/
def Spec.shl (a n : Int) : Int := if 0 ≤ n then mulPow a n.toNat else floorPow a (-n).toNat
/-- `a >> n` -/
def Spec.shr (a n : Int) : Int := if 0 ≤ n then floorPow a n.toNat else mulPow a (-n).toNat
/-- `a >>> n` -/
def Spec.shru (a n : Int) : Int := if 0 ≤ n then unsignedPow a n.toNat else mulPow a (-n).toNat

theorem wrap64_eq_bmod (x : Int) : Spec.wrap64 x = Int.bmod x (2^64) := by
  unfold Spec.wrap64 Int.bmod
  simp only [Int.reducePow, Nat.reducePow]
  omega

theorem toInt_shl (a : I64) (n : Nat) : (a <<< n).toInt = Spec.mulPow a.toInt n := by
  rw [Spec.mulPow, wrap64_eq_bmod, BitVec.toInt_shiftLeft, Nat.shiftLeft_eq]
  rw [BitVec.toInt_eq_toNat_bmod a]
  push_cast
  exact Int.bmod_mul_bmod.symm

theorem toInt_sar (a : I64) (n : Nat) : (a.sshiftRight n).toInt = Spec.floorPow a.toInt n := by
  rw [Spec.floorPow, BitVec.toInt_sshiftRight, Int.shiftRight_eq_div_pow]
  rw [Int.fdiv_eq_ediv_of_nonneg]
  · norm_cast
  · exact Int.le_of_lt (Int.pow_pos (by decide))

theorem toInt_shr (a : I64) (n : Nat) : (a >>> n).toInt = Spec.unsignedPow a.toInt n := by
  rw [Spec.unsignedPow, wrap64_eq_bmod, BitVec.toInt_eq_toNat_bmod, BitVec.toNat_ushiftRight,
    Nat.shiftRight_eq_div_pow]
  have h : a.toInt % 2^64 = (a.toNat : Int) := by
    rw [BitVec.toInt_eq_toNat_bmod]
    have := a.isLt
    rw [show (2:Int)^64 = ((2^64 : Nat) : Int) from rfl, Int.bmod_emod]
    omega
  rw [h]; norm_cast

theorem neg_shift (b : I64) (h1 : b.toInt < 0) (h2 : -64 < b.toInt) :
    ∃ c : I64, cNeg b = .val c ∧ c.toInt = -b.toInt := by
  have hb : b ≠ intMin := by
    intro h; rw [h] at h2
    exact absurd h2 (by decide)
  refine ⟨-b, by simp [cNeg, hb], ?_⟩
  rw [BitVec.toInt_neg]
  have := BitVec.toInt_lt (x := b)
  unfold Int.bmod
  simp only [Nat.reducePow]
  omega

theorem mulPow_big (a : Int) (n : Nat) (h : 64 ≤ n) : Spec.mulPow a n = 0 := by
  obtain ⟨k, rfl⟩ := Nat.exists_eq_add_of_le h
  rw [Spec.mulPow, Spec.wrap64, Int.pow_add, ← Int.mul_assoc, Int.mul_right_comm]
  have := Int.add_mul_emod_self_right (2^63) (a * 2^k) (2^64)
  rw [Int.add_comm, this]; decide

theorem floorPow_big (a : Int) (n : Nat) (h : 63 ≤ n) (h1 : -2^63 ≤ a) (h2 : a < 2^63) :
    Spec.floorPow a n = if a < 0 then -1 else 0 := by
  have hp : (2:Int)^63 ≤ 2^n := by
    have := Nat.pow_le_pow_right (n := 2) (by decide) h
    exact_mod_cast this
  rw [Spec.floorPow, Int.fdiv_eq_ediv_of_nonneg _ (by omega)]
  split
  · rw [Int.ediv_eq_iff_of_pos (by omega)]; omega
  · exact Int.ediv_eq_zero_of_lt (by omega) (by omega)

theorem unsignedPow_big (a : Int) (n : Nat) (h : 64 ≤ n) : Spec.unsignedPow a n = 0 := by
  have hp : (2:Int)^64 ≤ 2^n := by
    have := Nat.pow_le_pow_right (n := 2) (by decide) h
    exact_mod_cast this
  rw [Spec.unsignedPow, Int.ediv_eq_zero_of_lt (by omega) (by omega)]; decide

theorem cShl_ok (a n : I64) (h : 0 ≤ n.toInt ∧ n.toInt < 64) :
    ∃ v, cShl a n = .val v ∧ v.toInt = Spec.mulPow a.toInt n.toInt.toNat :=
  ⟨_, if_pos h, toInt_shl _ _⟩
theorem cSar_ok (a n : I64) (h : 0 ≤ n.toInt ∧ n.toInt < 64) :
    ∃ v, cSar a n = .val v ∧ v.toInt = Spec.floorPow a.toInt n.toInt.toNat :=
  ⟨_, if_pos h, toInt_sar _ _⟩
theorem cShr_ok (a n : I64) (h : 0 ≤ n.toInt ∧ n.toInt < 64) :
    ∃ v, cShr a n = .val v ∧ v.toInt = Spec.unsignedPow a.toInt n.toInt.toNat :=
  ⟨_, if_pos h, toInt_shr _ _⟩

/-- **C11 (<<).** Never undefined, and equal to the arithmetic specification for all operands. -/
theorem C11_shl (a b : I64) : ∃ v, vmShl a b = .val v ∧ v.toInt = Spec.shl a.toInt b.toInt := by
  have ha1 := BitVec.le_toInt a
  have ha2 := BitVec.toInt_lt (x := a)
  unfold vmShl Spec.shl
  split
  · rename_i h
    refine ⟨_, rfl, ?_⟩
    by_cases hb : 0 ≤ b.toInt
    · rw [if_pos hb, if_neg (by omega), mulPow_big _ _ (by omega)]; decide
    · rw [if_neg hb, floorPow_big _ _ (by omega) ha1 ha2]
      split <;> rename_i h' <;> split <;> rename_i h'' <;> first | omega | rfl
  · rename_i h
    split
    · rename_i hb
      obtain ⟨c, hc, hc'⟩ := neg_shift b hb (by omega)
      rw [hc, Res.bind, if_neg (by omega), ← hc']
      exact cSar_ok a c (by omega)
    · rw [if_pos (by omega)]
      exact cShl_ok a b (by omega)

/-- **C11 (>>).** -/
theorem C11_shr (a b : I64) : ∃ v, vmShr a b = .val v ∧ v.toInt = Spec.shr a.toInt b.toInt := by
  have ha1 := BitVec.le_toInt a
  have ha2 := BitVec.toInt_lt (x := a)
  unfold vmShr Spec.shr
  split
  · rename_i h
    refine ⟨_, rfl, ?_⟩
    by_cases hb : 0 ≤ b.toInt
    · rw [if_pos hb, floorPow_big _ _ (by omega) ha1 ha2]
      split <;> rename_i h' <;> split <;> rename_i h'' <;> first | omega | rfl
    · rw [if_neg hb, if_neg (by omega), mulPow_big _ _ (by omega)]; decide
  · rename_i h
    split
    · rename_i hb
      obtain ⟨c, hc, hc'⟩ := neg_shift b hb (by omega)
      rw [hc, Res.bind, if_neg (by omega), ← hc']
      exact cShl_ok a c (by omega)
    · rw [if_pos (by omega)]
      exact cSar_ok a b (by omega)

/-- **C11 (>>>).** -/
theorem C11_shru (a b : I64) : ∃ v, vmShru a b = .val v ∧ v.toInt = Spec.shru a.toInt b.toInt := by
  unfold vmShru Spec.shru
  split
  · rename_i h
    refine ⟨_, rfl, ?_⟩
    by_cases hb : 0 ≤ b.toInt
    · rw [if_pos hb, unsignedPow_big _ _ (by omega)]; decide
    · rw [if_neg hb, mulPow_big _ _ (by omega)]; decide
  · rename_i h
    split
    · rename_i hb
      obtain ⟨c, hc, hc'⟩ := neg_shift b hb (by omega)
      rw [hc, Res.bind, if_neg (by omega), ← hc']
      exact cShl_ok a c (by omega)
    · rw [if_pos (by omega)]
      exact cShr_ok a b (by omega)

/-- Non-vacuity: positive, negative and huge counts. -/
example : vmShl (-3) (-1) = .val (-2) ∧ vmShr (-3) 4000 = .val (-1) ∧ vmShru (-1) 60 = .val 15 ∧
    vmShl 1 64 = .val 0 := by decide

end Verif.Vm
