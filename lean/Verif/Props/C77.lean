import Verif.Names.Proof
/-
  C77: every name refers to the innermost declaration visible where it is used.
-/
namespace Verif.Names

open Spec (Ref)

/-- The compiler rejects exactly the modules in which a name has no meaning, a
    name is declared twice in a block, or a constant is assigned to, and it
    blames the same place; otherwise each name refers to the declaration it
    means. -/
theorem C77_names (gs : List (Decl × Bool)) (e : E) :
    match Spec.program gs e with
    | .error er => process gs e = .error er
    | .ok rs => ∃ st, process gs e = .ok st ∧
        st.uses.map (fun u => (u.node, u.decl)) = rs.map (fun r => (r.use, r.decl.node)) := by
  have H := visit_resolve e none none [] ⟨[⟨known gs, none, false⟩], [], [], []⟩ _
    (init_rel gs) .none
  simp only [Spec.program]
  split at H
  · rename_i er h
    rw [h]
    exact H
  · rename_i v rs h
    rw [h]
    obtain ⟨st, h1, _, _, T⟩ := H
    refine ⟨st, h1, ?_⟩
    rw [T.uses]
    simp [Function.comp_def, refUse]

/-- An accepted module: each use is taken to be local exactly if the variable
    belongs to the same function as the use, or is global. -/
theorem C77_local (gs : List (Decl × Bool)) (e : E) (rs : List Ref)
    (h : Spec.program gs e = .ok rs) :
    ∃ st, process gs e = .ok st ∧
      st.uses.map (fun u => (u.node, u.loc)) =
        rs.map (fun r => (r.use, decide (r.crossed = [] ∨ r.decl.kind.glob = true))) := by
  have H := visit_resolve e none none [] ⟨[⟨known gs, none, false⟩], [], [], []⟩ _
    (init_rel gs) .none
  simp only [Spec.program] at h
  split at h
  · rename_i v rs' hr
    injection h with h
    subst h
    rw [hr] at H
    obtain ⟨st, h1, _, _, T⟩ := H
    refine ⟨st, h1, ?_⟩
    rw [T.uses]
    simp only [List.nil_append, List.map_map]
    apply List.map_congr_left
    intro r _
    simp only [Function.comp, refUse, Prod.mk.injEq, true_and]
    cases hc : r.crossed <;> cases hg : r.decl.kind.glob <;> simp
  · cases h

/-- An accepted module: a function keeps the variables of exactly those outer
    functions, or of the global scope, whose variables are used in it or in
    functions inside of it, where the global ones known to other modules do not
    count. -/
theorem C77_closures (gs : List (Decl × Bool)) (e : E) (rs : List Ref)
    (h : Spec.program gs e = .ok rs) :
    ∃ st, process gs e = .ok st ∧
      (∀ f o, (f, o) ∈ st.closures ↔
        ∃ r ∈ rs, r.decl.kind.glob = false ∧ f ∈ r.crossed ∧ o = r.decl.funs.head?) ∧
      (∀ n, n ∈ st.indep ↔
        ∃ r ∈ rs, r.decl.kind.glob = false ∧ r.crossed ≠ [] ∧ n = r.decl.node) := by
  have H := visit_resolve e none none [] ⟨[⟨known gs, none, false⟩], [], [], []⟩ _
    (init_rel gs) .none
  simp only [Spec.program] at h
  split at h
  · rename_i v rs' hr
    injection h with h
    subst h
    rw [hr] at H
    obtain ⟨st, h1, _, _, T⟩ := H
    refine ⟨st, h1, ?_, ?_⟩
    · intro f o
      rw [T.closures]
      simp only [List.not_mem_nil, false_or]
      constructor
      · rintro ⟨r, hm, hc⟩
        unfold refClosures at hc
        split at hc
        · cases hc
        · rename_i hg
          obtain ⟨g, hg1, hg2⟩ := List.mem_map.1 hc
          injection hg2 with e1 e2
          exact ⟨r, hm, by simpa using hg, e1 ▸ hg1, e2.symm⟩
      · rintro ⟨r, hm, hg, hf, rfl⟩
        refine ⟨r, hm, ?_⟩
        simp only [refClosures, hg, Bool.false_eq_true, if_false]
        exact List.mem_map.2 ⟨f, hf, rfl⟩
    · intro n
      rw [T.indep]
      simp only [List.not_mem_nil, false_or, refIndep]
      constructor
      · rintro ⟨r, hm, hb, rfl⟩
        refine ⟨r, hm, ?_, ?_, rfl⟩
        · cases hg : r.decl.kind.glob <;> simp_all
        · intro hc; simp [hc] at hb
      · rintro ⟨r, hm, hg, hc, rfl⟩
        refine ⟨r, hm, ?_, rfl⟩
        simp [hg, hc]
  · cases h

/- Examples.  Names: 1 = a, 2 = b, 3 = f, 4 = e. -/

/-- The parts of the result which are checked below. -/
def shown (r : Except Err St) : Except Err (List (Nat × Nat × Bool) × List (Nat × Option Nat) ×
    List Nat) :=
  match r with
  | .ok st => .ok (st.uses.map (fun u => (u.node, u.decl, u.loc)), st.closures, st.indep)
  | .error e => .error e

def loc : Kind := ⟨false, false⟩
def cst : Kind := ⟨true, false⟩

/-- `var a = 1; do { const a = a + 1; a }; a`: the value of the inner `a` uses the
    outer one. -/
example : shown (process [] (.op (.decl loc [⟨10, 1⟩] .nop)
      (.op (.scope false (.op (.decl cst [⟨11, 1⟩] (.use 20 1)) (.use 21 1))) (.use 22 1)))) =
    .ok ([(20, 10, true), (21, 11, true), (22, 10, true)], [], []) := by rfl

/-- `var a = 1; fun f(b = a) { fun { a + b + f } }`: both functions keep the global
    scope, the inner one keeps the arguments of the outer one. -/
example : shown (process [] (.op (.decl loc [⟨10, 1⟩] .nop)
      (.self cst ⟨11, 3⟩ (.fn 100 [⟨12, 2⟩]
        (.fn 101 [] (.op (.use 20 1) (.op (.use 21 2) (.use 22 3))) .nop) (.use 23 1))))) =
    .ok ([(20, 10, false), (21, 12, false), (22, 11, false), (23, 10, true)],
      [(101, some 100), (100, none), (101, none)], [11, 12, 10]) := by rfl

/-- `const f = fun(a = f) { }`: a function is not visible in its default values. -/
example : shown (process [] (.self cst ⟨10, 3⟩ (.fn 100 [⟨11, 1⟩] .nop (.use 20 3)))) =
    .error (.undefined 20) := by rfl

/-- `var a = 1; defer { }; var a = 2`: the block goes on behind `defer`. -/
example : shown (process [] (.op (.decl loc [⟨10, 1⟩] .nop)
      (.scope true (.op (.scope true (.decl loc [⟨11, 1⟩] .nop)) (.scope false .nop))))) =
    .error (.redefined 11) := by rfl

/-- `try { } catch const e { e } e`: the caught value is visible in its block. -/
example : shown (process [] (.op (.scope false (.op (.scope false .nop)
      (.catch true ⟨10, 4⟩ (.use 20 4)))) (.use 21 4))) =
    .error (.undefined 21) := by rfl

/-- `const f = class { constructor { f } a() { f } b = f }` is rejected: the class is
    visible in its functions only. -/
example : shown (process [] (.self cst ⟨10, 3⟩ (.cls .nop (.mem (.fn 100 [] (.use 20 3) .nop)
      (.mem (.use 21 3) (.fn 101 [] (.use 22 3) .nop)))))) =
    .error (.undefined 21) := by rfl

/-- A global of another module is neither kept nor changed. -/
example : shown (process [(⟨5, 1⟩, true)] (.fn 100 [] (.use 20 1) .nop)) =
      .ok ([(20, 5, true)], [], []) ∧
    shown (process [(⟨5, 1⟩, true)] (.fn 100 [] (.asg 20 1 .nop) .nop)) =
      .error (.constAssign 20) := ⟨rfl, rfl⟩

end Verif.Names
