/-
  C78: the optimizer ends.
-/
import Verif.Clos.Ends
import Verif.Props.C76

namespace Verif.Clos

/-- For every program whose names were resolved there is a number of visits of
    each function and of the program after which nothing is left to optimize.
    Whatever larger bound the loops get, they stop with the same result, so they
    stop without a bound.  The full statement is the same for every program the
    compiler accepts.  Missing: constant folding, removal of dead code, default
    values, classes and global variables count optimizations, too, and are not in
    the model. -/
theorem C78_ends_partial (P : E) (h : Resolved P) : ∃ s n, ∀ m, n ≤ m → optimize m P = some s :=
  optimize_ends h

/-- The result does not depend on the bound. -/
theorem C78_same (P : E) (m m' : Nat) (s s' : St) (h : optimize m P = some s)
    (h' : optimize m' P = some s') : s = s' := by
  have a := passes_fuel m m (max m m') (max m m') _ _ (by omega) (by omega) h
  have b := passes_fuel m' m' (max m m') (max m m') _ _ (by omega) (by omega) h'
  rw [a] at b
  exact Option.some.inj b

/-- Together with C76: what the compiled program does is what it means, without
    a hypothesis that the optimizer ends. -/
theorem C78_closures_partial (P : E) (h : Resolved P) (hD : DirectSelf P) :
    ∃ s n, (∀ m, n ≤ m → optimize m P = some s) ∧ ∀ k, compiled s k P = meaning k P := by
  obtain ⟨s, n, hs⟩ := optimize_ends h
  exact ⟨s, n, hs, fun k => C76_direct_partial P n s h (hs n (Nat.le_refl _)) hD k⟩

/-! Examples -/

-- two visits are not enough
example : (optimize 2 C76_sum).isSome = false := by decide +kernel
example : (optimize 5 C76_sum).isSome = true := by decide +kernel

end Verif.Clos
