import Verif.Vm.IntOps
/-! C12: constant folding agrees with the virtual machine. -/
namespace Verif.Vm

/-- What folding may do, given the run-time outcome: a value must be folded to the same literal; an
exception becomes a compile error of the same kind; undefined behaviour (signed overflow) occurs at
compile time only where it would occur at run time. -/
inductive Spec.FoldMatches : Res → Fold → Prop
  | val (v : I64) : FoldMatches (.val v) (.lit v)
  | exc (e : Exc) : FoldMatches (.raise e) (.compileError e)
  | ub : FoldMatches .ub .ub

theorem foldMatches_ofRes (r : Res) : Spec.FoldMatches r (Fold.ofRes r) := by
  cases r <;> constructor

/-- **C12 (binary).** For every operator and all operands the folded constant is what the VM computes. -/
theorem C12_fold_binary_agrees (op : BinOp) (a b : I64) :
    Spec.FoldMatches (vmBin op a b) (foldBin op a b) := by
  cases op <;> simp only [vmBin, foldBin]
  · exact foldMatches_ofRes _
  · exact foldMatches_ofRes _
  · exact foldMatches_ofRes _
  · unfold vmDiv
    by_cases hb : b = 0
    · have h1 : ¬ ((0 : I64) = -1) := by decide
      subst hb
      rw [if_neg (fun h => h1 h.1), if_neg (by simp), if_pos rfl]; constructor
    · by_cases ho : b = -1 ∧ a = intMin
      · rw [if_pos ho, if_neg hb, if_pos ho]; constructor
      · rw [if_neg ho, if_pos hb, if_neg hb, if_neg ho]; exact foldMatches_ofRes _
  · unfold vmMod
    by_cases hb : b = 0
    · have h1 : ¬ ((0 : I64) = -1) := by decide
      subst hb
      rw [if_neg (fun h => h1 h.1), if_neg (by simp), if_pos rfl]; constructor
    · by_cases ho : b = -1 ∧ a = intMin
      · rw [if_pos ho, if_neg hb, if_pos ho]; constructor
      · rw [if_neg ho, if_pos hb, if_neg hb, if_neg ho]; exact foldMatches_ofRes _
  · constructor
  · constructor
  · constructor
  · unfold vmShl
    split
    · constructor
    · split <;> exact foldMatches_ofRes _
  · unfold vmShr
    split
    · constructor
    · split <;> exact foldMatches_ofRes _
  · unfold vmShru
    split
    · constructor
    · split <;> exact foldMatches_ofRes _

/-- **C12 (unary).** -/
theorem C12_fold_unary_agrees (op : UnOp) (a : I64) :
    Spec.FoldMatches (vmUn op a) (foldUn op a) := by
  cases op
  · constructor
  · simp only [vmUn, foldUn, vmNeg, vmSub, cNeg]
    by_cases h : a = intMin
    · subst h
      have : cSub 0 intMin = .ub := by decide
      rw [this, if_pos rfl]; constructor
    · have hne : a.toInt ≠ -2^63 := by
        intro hh; apply h; apply BitVec.eq_of_toInt_eq; rw [hh]; decide
      have h1 := BitVec.le_toInt a
      have h2 := BitVec.toInt_lt (x := a)
      have hz : (0 : I64).toInt = 0 := by decide
      rw [cSub, if_pos, if_neg h]
      · rw [show (0 : I64) - a = -a from BitVec.zero_sub a]; constructor
      · rw [hz]; omega
  · constructor

/-- Non-vacuity: a folded value, a compile error and an out-of-range shift. -/
example : foldBin .div (-7) 2 = .lit (-3) ∧ foldBin .mod 5 0 = .compileError .divByZero ∧
    foldBin .shr (-5) 100 = .lit (-1) := by decide

end Verif.Vm
