/-
  C82: if something is thrown while `x = …` is computed, `x` keeps its value.  It does
  not if the compiler uses the register of `x` for an intermediate result.
-/
import Verif.Props.C81

namespace Verif.Ec

/-- Whatever the statements throw, variables have the values which the assignments
    in front gave them. -/
def Keeps (l : List Stmt) : Prop :=
  ∀ {V W : Type} (S : Sem V W) (cx : Cx) (t : Tmps) (c : Code) (t' : Tmps), genAll cx l t = some (c, t') →
    (∀ s ∈ l, s.Wf cx.vars cx.this) → ∀ ρ w e ρ' w', c.run S ρ w = (.error e, ρ', w') →
      ∀ x, cx.vars x = true → ρ' x = (execAll S cx.this l ρ w).2.1 x

theorem thrower_mem {V W : Type} {S : Sem V W} {this : Nat} (l : List Stmt) (ρ : Env V) (w : W) (v : V) (s : Stmt)
    (hs : (execAll S this l ρ w).1 = .error (v, s)) : s ∈ l := by
  induction l generalizing ρ w with
  | nil => simp [execAll] at hs
  | cons s1 l ih =>
    simp only [execAll] at hs
    rcases he : s1.exec S this ρ w with ⟨r, env, w1⟩
    rw [he] at hs
    cases r with
    | ok u => exact List.mem_cons_of_mem _ (ih _ _ hs)
    | error y => simp only [Except.error.injEq, Prod.mk.injEq] at hs; simp [hs.2]

/-- Missing: assignments to a variable of expressions which are not `late`, for some of which it is
    false, see below. -/
theorem C82_keeps_partial (l : List Stmt) (hm : ∀ s ∈ l, s.NoModAsync)
    (hc : ∀ this, ∀ s ∈ l, s.clob this = false) (hl : ∀ x, ∀ s ∈ l, s.early x = false) : Keeps l := by
  intro V W S cx t c t' h hw ρ w e ρ' w' hr x hx
  obtain ⟨h1, h2⟩ := all_ok (S := S) l t c t' h hw hm (hc cx.this)
  obtain ⟨ρ2, h3, h4, h5⟩ := h2 ρ ρ w fun _ _ => rfl
  rw [hr] at h3
  simp only [Prod.mk.injEq] at h3
  obtain ⟨_, rfl, _⟩ := h3
  refine h4 x hx fun v s hs => hl x s ?_
  exact thrower_mem l ρ w v s hs

/-- Also without restrictions on what is assigned, only variables which are assigned to in the statement
    that throws can differ. -/
theorem C82_others_partial (l : List Stmt) (hm : ∀ s ∈ l, s.NoModAsync) (hc : ∀ this, ∀ s ∈ l, s.clob this = false)
    {V W : Type} (S : Sem V W) (cx : Cx) (t : Tmps) (c : Code) (t' : Tmps) (h : genAll cx l t = some (c, t'))
    (hw : ∀ s ∈ l, s.Wf cx.vars cx.this) (ρ : Regs V) (w : W) (v : V) (s : Stmt)
    (he : (execAll S cx.this l ρ w).1 = .error (v, s)) :
    ∃ ρ' w', c.run S ρ w = (.error v, ρ', w') ∧
      ∀ x, cx.vars x = true → (∀ e, s ≠ .assign none (.local x) e) → ρ' x = (execAll S cx.this l ρ w).2.1 x := by
  obtain ⟨h1, h2⟩ := all_ok (S := S) l t c t' h hw hm (hc cx.this)
  obtain ⟨ρ', h3, h4, h5⟩ := h2 ρ ρ w fun _ _ => rfl
  refine ⟨ρ', _, by rw [h3, he]; rfl, fun x hx hs => h4 x hx fun v' s' h6 => ?_⟩
  rw [he] at h6
  cases h6
  unfold Stmt.early
  split
  · rename_i y e
    have := hs e
    simp only [Bool.and_eq_false_iff, decide_eq_false_iff_not]
    left
    rintro rfl
    exact this rfl
  · rfl

/-- Like `logSem`, but instruction `p` throws. -/
def throwSem (p : Prim) : Sem Nat (List (Prim × List Nat)) :=
  { logSem with prim := fun q l w => if q = p then (.error 77, w) else logSem.prim q l w }

/-- `x = [x] + x.f(x)` with an addition which throws: `x` is the same afterwards. -/
example : (genAll cx3 [.assign none (.local 0) (.binary 3 false (.array (.cons false (name 0) (.local 0) .nil))
      (.call (.prop false (.local 0) (name 6)) false (.cons false (name 0) (.local 0) .nil)))] (fun _ => false)).map
      (fun x => let r := x.1.run (throwSem (.op 3)) regs0 []; (r.1.isOk, r.2.1 0, r.2.2.length)) =
    some (false, 10, 4) := by decide +kernel

theorem not_keeps {l : List Stmt} (p : Prim) (hw : ∀ s ∈ l, s.Wf cx3.vars cx3.this)
    (h : ∃ x, genAll cx3 l (fun _ => false) = some x ∧ (x.1.run (throwSem p) regs0 []).1.isOk = false ∧
      (x.1.run (throwSem p) regs0 []).2.1 0 ≠ (execAll (throwSem p) 2 l regs0 []).2.1 0) : ¬ Keeps l := by
  intro hk
  obtain ⟨⟨c, t'⟩, h1, h2, h3⟩ := h
  rcases hr : c.run (throwSem p) regs0 [] with ⟨r, ρ', w'⟩
  simp only [hr] at h2 h3
  cases r with
  | ok u => simp [Except.isOk, Except.toBool] at h2
  | error e => exact h3 (hk (throwSem p) cx3 _ c t' h1 hw regs0 [] e ρ' w' hr 0 (by decide))

/-- `x = -g()`, if the value of `g()` cannot be subtracted from 0: `x` is that value. -/
theorem C82_neg_violated : ¬ Keeps [.assign none (.local 0) (.neg (.call (.fn (.var 7 true)) false .nil))] := by
  refine not_keeps .sub ?_ ⟨_, rfl, by decide +kernel⟩
  simp only [List.mem_singleton, forall_eq]
  constructor <;> simp [Stmt.value, Stmt.targets, Expr.reads, Elems.reads, Callee.reads, Target.reads, Target.isVar, cx3] <;> omega

/-- `x = [this.f()]`, if `f` throws: `x` is an array. -/
theorem C82_array_violated : ¬ Keeps [.assign none (.local 0) (.array (.cons false (name 0)
    (.call (.prop false .this (name 6)) false .nil) .nil))] := by
  refine not_keeps .callN ?_ ⟨_, rfl, by decide +kernel⟩
  simp only [List.mem_singleton, forall_eq]
  constructor <;> simp [Stmt.value, Stmt.targets, Expr.reads, Elems.reads, Callee.reads, Target.reads, Target.isVar, cx3] <;> omega

/-- `x = {a: g()}`, if `g` throws: `x` is an object. -/
theorem C82_object_violated : ¬ Keeps [.assign none (.local 0) (.object (.cons false (name 5)
    (.call (.fn (.var 7 true)) false .nil) .nil))] := by
  refine not_keeps .callFun ?_ ⟨_, rfl, by decide +kernel⟩
  simp only [List.mem_singleton, forall_eq]
  constructor <;> simp [Stmt.value, Stmt.targets, Expr.reads, Elems.reads, Callee.reads, Target.reads, Target.isVar, cx3] <;> omega

/-- `x = y.name` in a file with many strings, if that throws: `x` is the string "name". -/
theorem C82_far_violated : ¬ Keeps [.assign none (.local 0) (.prop false (.local 1) ⟨true, 8⟩)] := by
  refine not_keeps (.get false) ?_ ⟨_, rfl, by decide +kernel⟩
  simp only [List.mem_singleton, forall_eq]
  constructor <;> simp [Stmt.value, Stmt.targets, Expr.reads, Target.reads, Target.isVar, cx3] <;> omega

end Verif.Ec
