import Verif.Ctl.OptimMore
import Verif.Props.C60

/-
C36: removing statements which the optimizer considers unreachable never changes what a program does.
-/
namespace Verif.Ctl

variable {σ V : Type}

/-- Two statements do the same: with any bound on the number of passes through loops, they end in the same way with the same memory. -/
def Same (S : Sem σ V) (s t : Stmt) : Prop := ∀ n env m, exec S n s env m = exec S n t env m

/-- The full claim: for all bodies of functions which the parser accepts. -/
def C36_full : Prop := ∀ (σ V : Type) (S : Sem σ V) (ff : Nat) (b : Stmt),
  Known S (.leaf ff (some false)) → KnownS S b → WellPlaced b → Same S (opt ff b).1 b

/-- **C36**, for programs in which the optimizer knows of every `break` and `continue` where it matters (`Counted`).  What is missing:
loops and cases whose last statement returns or throws but which can be left by a `break` in a statement before it. -/
theorem C36_partial (S : Sem σ V) (ff : Nat) (b : Stmt) (hk : KnownS S b) (hp : WellPlaced b) (hc : Counted ff b) : Same S (opt ff b).1 b :=
  (opt_ok S ff b _ hk hp hc).1

/-- **C36** with a condition which can be seen in the program: no body of a loop and no case has both a `break` of its own and a `return` or
`throw`, and no body of `repeat` has a `continue`. -/
theorem C36_apart_partial (S : Sem σ V) (ff : Nat) (b : Stmt) (hk : KnownS S b) (hp : WellPlaced b) (ha : Apart b) : Same S (opt ff b).1 b :=
  C36_partial S ff b hk hp (apart_counted ff b ha)

/-- The parser appends `return` to the body of a function, which may be removed as unreachable.  Then control does not get there. -/
theorem C36_return_partial (S : Sem σ V) (ff i : Nat) (b : Stmt) (hk : KnownS S b) (hp : WellPlaced b) (hc : Counted ff b) (n : Nat) (m m' : σ) :
    exec S n (opt ff (.seq b (.ret i))).1 [] m ≠ some (.normal, m') := by
  rw [(opt_ok S ff (.seq b (.ret i)) (fun _ => false) ⟨hk, trivial⟩ ⟨hp, trivial⟩ ⟨hc, trivial⟩).1]
  simp only [exec]
  split
  · split <;> simp
  · rename_i h; exact h _

/-- A second pass changes nothing. -/
theorem C36_second_pass (ff : Nat) (s : Stmt) : opt ff (opt ff s).1 = opt ff s := opt_opt ff s

/-- With C60: the machine code of the optimized body does what the body means. -/
theorem C36_compiled_partial (S : Sem σ V) (ff : Nat) (b : Stmt) (hS : S.Lawful) (hff : Known S (.leaf ff (some false))) (hk : KnownS S b)
    (hs : SafeBody b) (hc : Counted ff b) (regs : Nat → V) (s : σ) :
    (∀ v s', Halts S (compFun true (opt ff b).1).prog ⟨0, regs, none, s⟩ (.ret v s') ↔ Ends S b s (.ret v) s') ∧
    (∀ v s', Halts S (compFun true (opt ff b).1).prog ⟨0, regs, none, s⟩ (.thr v s') ↔ Ends S b s (.thr v) s') := by
  have hp : WellPlaced b := safe_placed b _ _ _ _ _ (fun _ h => absurd rfl h) hs
  have hsame := C36_partial S ff b hk hp hc
  have hends : ∀ o s', Ends S (opt ff b).1 s o s' ↔ Ends S b s o s' := by
    intro o s'
    constructor <;> intro h <;> cases h with
    | ret n v s' h => first | exact .ret n v s' (hsame _ _ _ ▸ h) | exact .ret n v s' ((hsame _ _ _).trans h)
    | thr n v s' h => first | exact .thr n v s' (hsame _ _ _ ▸ h) | exact .thr n v s' ((hsame _ _ _).trans h)
    | fin n s' h => first | exact .fin n s' (hsame _ _ _ ▸ h) | exact .fin n s' ((hsame _ _ _).trans h)
  have := C60_partial S true (opt ff b).1 hS (opt_known hff b hk) (opt_safe ff b _ _ _ _ hs) regs s
  exact ⟨fun v s' => (this.1 v s').trans (hends _ _), fun v s' => (this.2 v s').trans (hends _ _)⟩

/-! ### Counterexamples -/

/-- Memory is a number.  Expressions: 0 is `false`, 1 is `true`, 10 adds 1 to the memory, 11 is `memory < 3`, 12 is the memory; others are
constants. -/
def countSem : Sem Nat Nat where
  expr i _ s :=
    if i = 10 then .ok s (s + 1)
    else if i = 11 then .ok (if s < 3 then 1 else 0) s
    else if i = 12 then .ok s s
    else .ok i s
  truthy v := v != 0
  void := 0
  ofBool b := if b then 1 else 0
  wrap v := if v < 100 then v + 100 else v
  next _ _ s := .ok false s
  same i _ v s := .ok (i == v) s

theorem countSem_false : Known countSem (.leaf 0 (some false)) := fun _ _ => ⟨0, rfl, rfl⟩

/-- `loop { if a { break } return 5 } return 6` -/
def lostCode : Stmt := .seq (.while (.leaf 1 (some true)) (.seq (.ite (.leaf 1 none) (.jump .brk)) (.ret 5))) (.ret 6)

/-- A `break` inside of an `if` is forgotten when the loop's body ends with `return`: the code after the loop is removed. -/
theorem C36_break_violated : exec countSem 3 lostCode [] 0 = some (.ret 6, 0) ∧ exec countSem 3 (opt 0 lostCode).1 [] 0 = some (.normal, 0) := by
  decide +kernel

/-- `switch 1 { default { if a { break } return 5 } } return 6` -/
def lostSwitch : Stmt := .seq (.switch 1 (.cons none (.seq (.ite (.leaf 1 none) (.jump .brk)) (.ret 5)) false .nil)) (.ret 6)

theorem C36_switch_violated : exec countSem 3 lostSwitch [] 0 = some (.ret 6, 0) ∧ exec countSem 3 (opt 0 lostSwitch).1 [] 0 = some (.normal, 0) := by
  decide +kernel

/-- `repeat { m += 1; continue } while m < 3; return m` -/
def lostCondition : Stmt := .seq (.repeat (.seq (.act 10) (.jump .cont)) (.leaf 11 none)) (.ret 12)

/-- `continue` is taken for `break`: the condition of `repeat` is replaced by `false`. -/
theorem C36_repeat_violated : exec countSem 5 lostCondition [] 0 = some (.ret 3, 3) ∧ exec countSem 5 (opt 0 lostCondition).1 [] 0 = some (.ret 1, 1) := by
  decide +kernel

/-- `fun { loop { if a { break } return 5 } }`: the `return` at the end of the function is removed, but control gets there. -/
theorem C36_return_violated : ∃ b, WellPlaced b ∧ KnownS countSem b ∧ exec countSem 3 (opt 0 (.seq b (.ret 0))).1 [] 0 = some (.normal, 0) :=
  ⟨.while (.leaf 1 (some true)) (.seq (.ite (.leaf 1 none) (.jump .brk)) (.ret 5)), by simp [WellPlaced, Placed, loopAllow],
    ⟨fun _ _ => ⟨1, rfl, rfl⟩, ⟨trivial, trivial⟩, trivial⟩, by decide +kernel⟩

/-- `if [m += 1] { } return m`: an array literal counts as a constant which is true, so its elements are not evaluated. -/
def lostEffect : Stmt := .seq (.ite (.leaf 10 (some true)) .skip) (.ret 12)

/-- Memory 1 is used so that the value of expression 10 is true, as that of an array. -/
theorem C36_effect_violated : exec countSem 3 lostEffect [] 1 = some (.ret 2, 2) ∧ exec countSem 3 (opt 0 lostEffect).1 [] 1 = some (.ret 1, 1) := by
  decide +kernel

theorem C36_violated : ¬ C36_full := fun h => by
  have := h Nat Nat countSem 0 lostCode countSem_false (by simp [lostCode, KnownS, Known]; exact fun _ _ => ⟨1, rfl, rfl⟩)
    (by simp [lostCode, WellPlaced, Placed, loopAllow]) 3 [] 0
  rw [C36_break_violated.1, C36_break_violated.2] at this
  cases this

/-! ### Examples -/

/-- `loop { if a { return 5 } else { break } m += 1 } if false { return 7 } loop { return 6 } m += 1`: three statements and a branch are
removed. -/
def c36Ex : Stmt :=
  .seq (.while (.leaf 1 (some true)) (.seq (.itee (.leaf 11 none) (.ret 5) (.jump .brk)) (.act 10)))
    (.seq (.ite (.leaf 0 (some false)) (.ret 7)) (.seq (.while (.leaf 1 (some true)) (.ret 6)) (.act 10)))

example : Counted 0 c36Ex := by
  simp [c36Ex, Counted, Leaves, Seen, opt, truth, Term.any, Term.or]

example : (opt 0 c36Ex).2.any = true ∧ exec countSem 3 (opt 0 c36Ex).1 [] 3 = some (.ret 6, 3) := by decide +kernel

/-- `try { throw 1 } catch const e { return 2 } m += 1` -/
example : opt 0 (.seq (.tryCatch (.throw 1) (.ret 2)) (.act 10)) = (.tryCatch (.throw 1) (.ret 2), ⟨false, false, true⟩) := by
  simp [opt, Term.any, Term.or]

/-- `while m < 3 { m += 1 } loop { if m < 3 { return 1 } return 2 }` is apart. -/
example : Apart (.seq (.while (.leaf 11 none) (.act 10)) (.while (.leaf 1 (some true)) (.seq (.ite (.leaf 11 none) (.ret 1)) (.ret 2)))) := by
  simp [Apart, Leaves, Exits]

end Verif.Ctl
