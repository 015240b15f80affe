/-
  C76: a function uses the variables of the call of the outer function in which
  it was created.
-/
import Verif.Clos.Link
import Verif.Clos.Mean

namespace Verif.Clos

/-- What the compiled program does within `n` steps: functions for which
    `loadConst` holds are single objects in the table of constants, uses for
    which `flag` holds load such an object. -/
def compiled (s : St) (n : Nat) (P : E) : Obs :=
  (eval (loadConst s) s.flag (tabOf (setsOf [] P) (declOf P)) n [0] P Mem.start).obs

/-- The full property: what the compiled program does is what the program means. -/
def C76_full : Prop :=
  ∀ P fuel s, Resolved P → optimize fuel P = some s → ∀ n, compiled s n P = meaning n P

/-- A shared function inside of another function `G` which uses the variable of
    `G` is allowed only if `G` is shared, too. -/
def NestedSelf (s : St) (P : E) : Prop :=
  ∀ x ∈ refsOf [] P, ∀ G, (declOf P x.v).map (·.1) = some G → G ∈ x.st →
    ∀ F ∈ x.st.take x.i, F ≠ G → loadConst s F = true → loadConst s G = true

/-- What is missing: programs in which a function uses its own variable from a
    function inside of it, when only the inner one is shared. -/
theorem C76_closures_partial (P : E) (fuel : Nat) (s : St) (hr : Resolved P)
    (ho : optimize fuel P = some s) (hN : NestedSelf s P) (n : Nat) :
    compiled s n P = meaning n P := by
  obtain ⟨hw, hg⟩ := wf_init hr
  obtain ⟨hi, hop⟩ := optimize_inv hg hw ho
  have := good_of_ctx hi hop hN P [[]] [] (ctx_init hr) hr.scopes hw
  unfold compiled
  rw [run_rel this n, meaning_eq]

/-- A function which uses its own variable uses it outside of functions inside
    of it. -/
def DirectSelf (P : E) : Prop :=
  ∀ x ∈ refsOf [] P, ∀ G, (declOf P x.v).map (·.1) = some G → G ∈ x.st → x.st.take x.i = [G]

/-- In particular there is nothing wrong with recursive functions which do not
    refer to themselves from functions inside of them. -/
theorem C76_direct_partial (P : E) (fuel : Nat) (s : St) (hr : Resolved P)
    (ho : optimize fuel P = some s) (hD : DirectSelf P) (n : Nat) :
    compiled s n P = meaning n P := by
  refine C76_closures_partial P fuel s hr ho ?_ n
  intro x hx G hG hm F hF hne
  rw [hD x hx G hG hm, List.mem_singleton] at hF
  exact absurd hF hne

/-- Uses which are replaced by LOAD.CONST are uses of a variable which is never
    assigned, which was declared with a function literal, and the function is
    loaded by LOAD.CONST everywhere (the assertion at kos_compiler.c 5305).
    For all programs. -/
theorem C76_const_uses (P : E) (fuel : Nat) (s : St) (hr : Resolved P)
    (ho : optimize fuel P = some s) (x : Use) (hx : x ∈ refsOf [] P) (hf : s.flag x.r = true) :
    (∀ y ∈ setsOf [] P, y.v ≠ x.v) ∧
    ∃ F p b, declOf P x.v = some (F, p, b) ∧ loadConst s F = true ∧ F ∉ x.st := by
  obtain ⟨hw, hg⟩ := wf_init hr
  obtain ⟨hi, hop⟩ := optimize_inv hg hw ho
  obtain ⟨a1, a2, F, a3, a4, a5, a6⟩ := hi.a x hx hf
  obtain ⟨b1, b2⟩ := hi.d _ F a3
  obtain ⟨p, b, hT⟩ := funOf_some b1
  exact ⟨hi.e _ a2, F, p, b, hT, loadConst_eq.2 ⟨b2, a6 (hop F)⟩, a4⟩

/-- A function which is a single object does not assign variables of functions
    around it; what it takes from them are only functions: single objects, or
    functions which are around the use.  For all programs. -/
theorem C76_captures (P : E) (fuel : Nat) (s : St) (hr : Resolved P)
    (ho : optimize fuel P = some s) (F : Nat) (hF : loadConst s F = true) :
    (∀ y ∈ setsOf [] P, F ∉ y.st.take y.i) ∧
    ∀ x ∈ refsOf [] P, F ∈ x.st.take x.i →
      (∀ y ∈ setsOf [] P, y.v ≠ x.v) ∧
      ∃ G p b, declOf P x.v = some (G, p, b) ∧ (loadConst s G = true ∨ G ∈ x.st) := by
  obtain ⟨hw, hg⟩ := wf_init hr
  obtain ⟨hi, hop⟩ := optimize_inv hg hw ho
  obtain ⟨d1, d2⟩ := loadConst_eq.1 hF
  obtain ⟨e1, e2⟩ := hi.b F (hop F) d1 d2
  refine ⟨e2, ?_⟩
  intro x hx hm
  rcases e1 x hx hm with h | ⟨h1, G, h2, h3⟩
  · obtain ⟨f1, G, p, b, f2, f3, -⟩ := C76_const_uses P fuel s hr ho x hx h
    exact ⟨f1, G, p, b, f2, .inl f3⟩
  · obtain ⟨b1, -⟩ := hi.d _ G h2
    obtain ⟨p, b, hT⟩ := funOf_some b1
    exact ⟨hi.e _ h1, G, p, b, hT, .inr h3⟩

/-- The program

        fun outer(k) {
            fun f(x) {
                fun g(_) { return f }
                if x { return g }
                return k
            }
            return f
        }
        const a = outer(10)(1)
        const b = outer(20)(1)
        a(1)(0)

    `g` only uses the variable of `f`, which is counted as a function using
    itself, so `g` is one object; the second call of `outer` binds it to the
    second `f`. -/
def C76_program : E :=
  .letf 0 100 1
    (.letf 2 101 10
      (.letf 3 102 11 (.ref 0 2 2)
        (.ite (.ref 9 0 10) (.ref 2 0 3) (.ref 8 1 1)))
      (.ref 3 0 2))
    (.letv 4 (.call (.call (.ref 4 0 0) (.num 10)) (.num 1))
      (.letv 5 (.call (.call (.ref 5 0 0) (.num 20)) (.num 1))
        (.call (.call (.ref 6 0 4) (.num 1)) (.num 0))))

def C76_is (x : Option St) (n : Nat) (P : E) (o : Obs) : Bool :=
  match x with
  | some s => compiled s n P == o
  | none => false

theorem C76_program_resolved : Resolved C76_program where
  funs := by decide
  vars := by decide
  nodes := by decide
  scopes := by
    simp [C76_program, Scoped, push]
  consts := by decide

/-- It means 10, the compiled program gives 20. -/
theorem C76_closures_violated :
    ∃ P fuel s, Resolved P ∧ optimize fuel P = some s ∧
      meaning 30 P = .num 10 ∧ compiled s 30 P = .num 20 := by
  have h1 : C76_is (optimize 20 C76_program) 30 C76_program (.num 20) = true := by decide +kernel
  have h2 : meaning 30 C76_program = .num 10 := by decide +kernel
  unfold C76_is at h1
  cases h : optimize 20 C76_program with
  | none => rw [h] at h1; cases h1
  | some s =>
    rw [h] at h1
    exact ⟨C76_program, 20, s, C76_program_resolved, h, h2, by simpa using h1⟩

theorem C76_not_full : ¬ C76_full := by
  intro hfull
  obtain ⟨P, fuel, s, hr, ho, h1, h2⟩ := C76_closures_violated
  have := hfull P fuel s hr ho 30
  rw [h1, h2] at this
  cases this

/-! Examples -/

/-- `fun counter(k) { var c = k; return fun(_) { c = c + 1; return c } }`,
    `const x = counter(5); const y = counter(50); x(0); x(0) + y(0)` -/
def C76_counter : E :=
  .letf 0 100 1
    (.letv 2 (.ref 0 0 1)
      (.fn 101 3 (.seq (.set 1 2 (.add (.ref 1 1 2) (.num 1))) (.ref 2 1 2))))
    (.letv 4 (.call (.ref 3 0 0) (.num 5))
      (.letv 5 (.call (.ref 4 0 0) (.num 50))
        (.seq (.call (.ref 5 0 4) (.num 0))
          (.add (.call (.ref 6 0 4) (.num 0)) (.call (.ref 7 0 5) (.num 0))))))

example : meaning 30 C76_counter = .num 58 := by decide +kernel
example : C76_is (optimize 20 C76_counter) 30 C76_counter (.num 58) = true := by decide +kernel
-- the counter is not shared, the function which creates it is
example : (optimize 20 C76_counter).map (fun s => (loadConst s 100, loadConst s 101)) =
    some (true, false) := by decide +kernel

/-- `fun sum(n) { if n { return n + sum(n + -1) }; return 0 }`, used in another function. -/
def C76_sum : E :=
  .letf 0 100 1
    (.ite (.ref 0 0 1) (.add (.ref 1 0 1) (.call (.ref 2 1 0) (.add (.ref 3 0 1) (.num (-1))))) (.num 0))
    (.letf 2 101 3 (.call (.ref 4 1 0) (.ref 5 0 3)) (.call (.ref 6 0 2) (.num 4)))

example : meaning 40 C76_sum = .num 10 := by decide +kernel
example : C76_is (optimize 20 C76_sum) 40 C76_sum (.num 10) = true := by decide +kernel
-- both are shared, the use of `sum` in the other function is replaced, that in itself is not
example : (optimize 20 C76_sum).map (fun s => (loadConst s 100, loadConst s 101, s.flag 4, s.flag 2)) =
    some (true, true, true, false) := by decide +kernel

example : DirectSelf C76_sum := by
  intro x hx G hG hm
  simp [C76_sum, refsOf] at hx
  rcases hx with h | h | h | h | h | h | h <;> subst h <;> simp_all [C76_sum, declOf]

end Verif.Clos
