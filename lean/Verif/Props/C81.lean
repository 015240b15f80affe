/-
  C81: code for expressions and assignments computes what they mean: operands from left
  to right, each once, each with the values the variables have, whatever registers
  the compiler chooses.  It does not for `x = {a: x}` and some others.
-/
import Verif.Ec.Proof8

namespace Verif.Ec

/-- Code for the statements `l` does what they mean: the same instructions in the same
    order with the same values, the same exception if there is one, and the same values of
    variables afterwards; it holds no registers at the end which were not held before, and leaves
    those alone which were. -/
def Right (l : List Stmt) : Prop :=
  ∀ {V W : Type} (S : Sem V W) (cx : Cx) (t : Tmps) (c : Code) (t' : Tmps), genAll cx l t = some (c, t') →
    (∀ s ∈ l, s.Wf cx.vars cx.this) →
    t' = t ∧ ∀ ρ w, ∃ ρ',
      c.run S ρ w = ((execAll S cx.this l ρ w).1.mapError Prod.fst, ρ', (execAll S cx.this l ρ w).2.2) ∧
      ((execAll S cx.this l ρ w).1 = .ok () → ∀ x, cx.vars x = true → ρ' x = (execAll S cx.this l ρ w).2.1 x) ∧
      ∀ j, cx.vars j = false → t j = true → ρ' j = ρ j

/-- Missing: statements of the forms of the theorems `_violated` below, for which it is false. -/
theorem C81_right_partial (l : List Stmt) (hm : ∀ s ∈ l, s.NoModAsync)
    (hc : ∀ this, ∀ s ∈ l, s.clob this = false) : Right l := by
  intro V W S cx t c t' h hw
  obtain ⟨h1, h2⟩ := all_ok (S := S) l t c t' h hw hm (hc cx.this)
  refine ⟨funext h1, fun ρ w => ?_⟩
  obtain ⟨ρ', h3, h4, h5⟩ := h2 ρ ρ w fun _ _ => rfl
  exact ⟨ρ', h3, fun h6 x hx => h4 x hx fun v s hs => (by rw [h6] at hs; cases hs), h5⟩

/-- The same for a single expression: its value is in the register which is returned.  A register in
    which it is wanted is either that one, or belongs to a variable; no other register in use changes. -/
theorem C81_value_partial {V W : Type} (S : Sem V W) (cx : Cx) (sib : Bool) (dest : Option Nat) (e : Expr) (t : Tmps) (o : Out)
    (h : gen cx sib dest e t = some o) (hw : ∀ x, e.reads cx.this x = true → cx.vars x = true)
    (hd : ∀ d, dest = some d → (cx.vars d = true ∨ t d = true) ∧ (cx.vars d = true → d ≠ cx.this))
    (hm : e.modAsync = false) (hc : ∀ d, dest = some d → e.clob cx.this d = false) (ρ : Regs V) (w : W) :
    (∀ d, dest = some d → dest = some o.reg ∨ cx.vars d = true ∨ cx.vars o.reg = true) ∧
    ∃ ρ', o.code.run S ρ w = ((e.eval S cx.this ρ w).1.map (fun _ => ()), ρ', (e.eval S cx.this ρ w).2) ∧
      (∀ v, (e.eval S cx.this ρ w).1 = .ok v → ρ' o.reg = v) ∧
      ∀ j, cx.vars j = true ∨ t j = true → dest ≠ some j → ρ' j = ρ j := by
  obtain ⟨⟨h1, h2, h3⟩, h4⟩ := gen_ok (S := S) e sib dest t o h hw hd hc hm
  refine ⟨fun d hdd => ?_, ?_⟩
  · by_cases hv : cx.vars d = true
    · exact .inr (.inl hv)
    · rcases h2 d hdd (by simpa using hv) with h5 | h5
      · exact .inl h5
      · exact .inr (.inr h5)
  · have := h4 ρ w
    rcases he : e.eval S cx.this ρ w with ⟨r, w1⟩
    rw [he] at this
    cases r with
    | ok v =>
      obtain ⟨ρ', h5, h6, h7⟩ := this
      exact ⟨ρ', h5, fun u hu => by cases hu; exact h6, h7⟩
    | error x =>
      obtain ⟨ρ', h5, h6⟩ := this
      exact ⟨ρ', h5, fun u hu => (by simp at hu), fun j hj hn => h6 j hj (.inl hn)⟩

/-! ## Examples -/

/-- Values are numbers; every instruction is written down and returns a new number. -/
def logSem : Sem Nat (List (Prim × List Nat)) where
  const c := match c with | .int i => i.toNat | .str n => 1000 + n | .void => 2000 | .bool b => if b then 3001 else 3000
  truthy v := v != 3000 && v != 2000 && v != 0
  prim p l w := (.ok (100 + w.length), w ++ [(p, l)])

/-- Variables 0, 1 and 2; `this` is in 2. -/
def cx3 : Cx := { vars := fun r => decide (r < 3), this := 2 }

/-- The variables have values 10, 11, 12; anything else is 13 and so on. -/
def regs0 : Regs Nat := fun r => 10 + r

/-- What the code does: the result, variables 0 and 1, and instructions. -/
def traceOf (l : List Stmt) : Option (Bool × List Nat × List (Prim × List Nat)) :=
  (genAll cx3 l (fun _ => false)).map fun x =>
    let r := x.1.run logSem regs0 []
    (r.1.isOk, [r.2.1 0, r.2.1 1], r.2.2)

/-- The same for what the statements mean. -/
def meaningOf (l : List Stmt) : Bool × List Nat × List (Prim × List Nat) :=
  let r := execAll logSem 2 l regs0 []
  (r.1.isOk, [r.2.1 0, r.2.1 1], r.2.2)

def name (n : Nat) : Key := ⟨false, n⟩

/-- `x.a += g(x, y - 1) || [x, -y]` and then `y = y.f(x.b)[x]`. -/
def someStmts : List Stmt :=
  [.assign (some 0) (.prop (.local 0) (name 5))
    (.logic false (.call (.fn (.var 7 true)) false (.cons false (name 0) (.local 0)
        (.cons false (name 0) (.binary 1 false (.local 1) (.lit (.int 1))) .nil)))
      (.array (.cons false (name 0) (.local 0) (.cons false (name 0) (.neg (.local 1)) .nil)))),
   .assign none (.local 1) (.index false (.call (.prop false (.local 1) (name 6)) false
      (.cons false (name 0) (.prop false (.local 0) ⟨true, 8⟩) .nil)) (.local 0))]

example : traceOf someStmts = some (meaningOf someStmts) := by decide +kernel

example : (meaningOf someStmts) = (true, [10, 109],
    [(.getVar 7, []), (.op 1, [11, 1]), (.callFun, [100, 10, 101]), (.get false, [10, 1005]), (.op 0, [103, 102]),
     (.set, [10, 1005, 104]), (.get false, [11, 1006]), (.get false, [10, 1008]), (.callN, [106, 11, 107]),
     (.get false, [108, 10])]) := by decide +kernel

theorem not_right {l : List Stmt} (hw : ∀ s ∈ l, s.Wf cx3.vars cx3.this)
    (h : ∃ x, genAll cx3 l (fun _ => false) = some x ∧
      (x.1.run logSem regs0 []).2.2 ≠ (execAll logSem 2 l regs0 []).2.2) : ¬ Right l := by
  intro hr
  obtain ⟨⟨c, t'⟩, h1, h2⟩ := h
  obtain ⟨_, h3⟩ := hr logSem cx3 _ c t' h1 hw
  obtain ⟨ρ', h4, _⟩ := h3 regs0 []
  refine h2 ?_
  simp only [h4]
  rfl

/-- `x = {a: x}` puts the new object into itself. -/
theorem C81_object_violated : ¬ Right [.assign none (.local 0) (.object (.cons false (name 5) (.local 0) .nil))] := by
  refine not_right ?_ ⟨_, rfl, by decide +kernel⟩
  simp only [List.mem_singleton, forall_eq]
  constructor <;> simp [Stmt.value, Stmt.targets, Expr.reads, Elems.reads, Target.reads, Target.isVar, cx3] <;> omega

/-- `x = fun(a = x) {…}`: the default value is the function. -/
theorem C81_default_violated : ¬ Right [.assign none (.local 0) (.func 1 true (.cons false (name 5) (.local 0) .nil))] := by
  refine not_right ?_ ⟨_, rfl, by decide +kernel⟩
  simp only [List.mem_singleton, forall_eq]
  constructor <;> simp [Stmt.value, Stmt.targets, Expr.reads, Elems.reads, Target.reads, Target.isVar, cx3] <;> omega

/-- `x = async g(x)`: the argument is the function. -/
theorem C81_async_violated :
    ¬ Right [.assign none (.local 0) (.async (.fn (.var 7 true)) false (.cons false (name 0) (.local 0) .nil))] := by
  refine not_right ?_ ⟨_, rfl, by decide +kernel⟩
  simp only [List.mem_singleton, forall_eq]
  constructor <;> simp [Stmt.value, Stmt.targets, Expr.reads, Elems.reads, Callee.reads, Target.reads, Target.isVar, cx3] <;> omega

/-- `x = async x.f()`: the object is the function. -/
theorem C81_method_violated : ¬ Right [.assign none (.local 0) (.async (.prop false (.local 0) (name 6)) false .nil)] := by
  refine not_right ?_ ⟨_, rfl, by decide +kernel⟩
  simp only [List.mem_singleton, forall_eq]
  constructor <;> simp [Stmt.value, Stmt.targets, Expr.reads, Elems.reads, Callee.reads, Target.reads, Target.isVar, cx3] <;> omega

/-- `async module.f()`: the object is whatever is in a register to which nothing was written. -/
theorem C81_module_violated : ¬ Right [.expr (.async (.module 7) false .nil)] := by
  refine not_right ?_ ⟨_, rfl, by decide +kernel⟩
  simp only [List.mem_singleton, forall_eq]
  constructor <;> simp [Stmt.value, Stmt.targets, Expr.reads, Elems.reads, Callee.reads, Target.reads, Target.isVar]

end Verif.Ec
