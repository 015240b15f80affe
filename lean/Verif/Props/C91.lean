import Verif.Arr.CasMethod
import Verif.Props.C17

/-!
C91: `array.cas` changes only the element at the given position (modules/kos_mod_base.c:3782-3814).

Full statement (`C91_full`): for every integer, the element at this position is returned, and replaced if it is the old value; a position which is not in the
array is an exception.

What is proved: this holds for positions which fit into a C `int`.  Other positions are truncated, so that an element which was not asked for is changed.
-/
namespace Verif.Props

open Verif.Arr

/-- What `cas` does with the elements `l`: `o` is the outcome. -/
def CasSpec {V : Type} (s : A V) (l : List V) (p : Int) (old new : V) (o : Option (Out V V)) : Prop :=
  match ArrSpec.index p l.length with
  | none => o = some (.raise .badIndex s)
  | some i => ∃ v s', l[i]? = some v ∧ o = some (.ok v s') ∧ ((v = old ∧ Rep s' (l.set i new)) ∨ (v ≠ old ∧ s' = s))

def C91_full (V : Type) [DecidableEq V] : Prop := ∀ (s : A V) (l : List V) (p : Int) (old new : V), Rep s l → s.ro = false → -(2 ^ 63) ≤ p → p < 2 ^ 63 →
  CasSpec s l p old new (casMethod s (.int p) old new)

theorem toCInt_small (p : Int) (h1 : -(2 ^ 31) ≤ p) (h2 : p < 2 ^ 31) : toCInt p = p := by
  unfold toCInt; omega

theorem cas_ok {V : Type} [DecidableEq V] (s : A V) (l : List V) (p : Int) (old new : V) (hr : Rep s l) (hro : s.ro = false) (h1 : -(2 ^ 31) ≤ p) (h2 : p < 2 ^ 31) :
    CasSpec s l p old new (some (cas s p old new)) := by
  unfold CasSpec
  rw [index_eq p l.length (by omega) (by omega) hr.size_lt]
  unfold cas
  rw [hro, hr.1]
  simp only [Bool.false_eq_true, if_false]
  by_cases hi : bufIdx p l.length < l.length
  · obtain ⟨b, e, hb⟩ := hr.cells _ hi
    rw [if_pos hi, if_pos hi, e]
    simp only [hb, List.getElem?_eq_getElem hi]
    by_cases hc : l[bufIdx p l.length] = old
    · rw [if_neg (by simpa using hc)]
      refine ⟨_, _, rfl, rfl, Or.inl ⟨hc, ?_⟩⟩
      have := hr.set _ hi new b e
      rw [hro, hr.1] at this
      exact this
    · rw [if_pos hc]
      exact ⟨_, _, rfl, rfl, Or.inr ⟨hc, rfl⟩⟩
  · rw [if_neg hi, if_neg hi]

/-- Positions which fit into an `int`, also floating-point numbers (`C88`). -/
theorem C91_cas_partial {V : Type} [DecidableEq V] (s : A V) (l : List V) (pos : GetInt.Obj) (p : Int) (old new : V) (hr : Rep s l) (hro : s.ro = false)
    (hp : GetInt.getInteger pos = .ok p) (h1 : -(2 ^ 31) ≤ p) (h2 : p < 2 ^ 31) : CasSpec s l p old new (casMethod s pos old new) := by
  have h := cas_ok s l p old new hr hro h1 h2
  cases pos with
  | other => cases hp
  | int v =>
    show CasSpec s l p old new (match GetInt.getInteger (.int v) with | .ok p => some (cas s (toCInt p) old new) | .exception => none | .ub => some .bad)
    rw [hp]
    simp only [toCInt_small p h1 h2]
    exact h
  | float b =>
    show CasSpec s l p old new (match GetInt.getInteger (.float b) with | .ok p => some (cas s (toCInt p) old new) | .exception => none | .ub => some .bad)
    rw [hp]
    simp only [toCInt_small p h1 h2]
    exact h

/-- A locked array is never changed. -/
theorem C91_locked {V : Type} [DecidableEq V] (s : A V) (v : Int) (old new : V) (hro : s.ro = true) :
    casMethod s (.int v) old new = some (.raise .readOnly s) := by
  show some (cas s (toCInt v) old new) = _
  unfold cas
  rw [hro]
  rfl

/-- Position 2^32 is taken for position 0. -/
theorem C91_truncated_violated : ¬ C91_full Nat := fun h => by
  have := h ⟨2, false, some [.val 7, .val 8]⟩ [7, 8] 4294967296 7 9 ⟨rfl, 0, rfl, by decide, by decide⟩ rfl (by decide) (by decide)
  have e : casMethod (V := Nat) ⟨2, false, some [.val 7, .val 8]⟩ (.int 4294967296) 7 9 = some (.ok 7 ⟨2, false, some [.val 9, .val 8]⟩) := by decide +kernel
  rw [e] at this
  have hi : ArrSpec.index 4294967296 [7, 8].length = none := by decide +kernel
  unfold CasSpec at this
  rw [hi] at this
  cases this

example : casMethod (V := Nat) ⟨2, false, some [.val 7, .val 8]⟩ (.int (-1)) 8 9 = some (.ok 8 ⟨2, false, some [.val 7, .val 9]⟩) := by decide +kernel
example : casMethod (V := Nat) ⟨2, false, some [.val 7, .val 8]⟩ (.int 1) 7 9 = some (.ok 8 ⟨2, false, some [.val 7, .val 8]⟩) := by decide +kernel
-- 1.5
example : casMethod (V := Nat) ⟨2, false, some [.val 7, .val 8]⟩ (.float 0x3FF8000000000000) 8 9 = some (.ok 8 ⟨2, false, some [.val 7, .val 9]⟩) := by decide +kernel
example : casMethod (V := Nat) ⟨2, false, some [.val 7, .val 8]⟩ (.int 2) 8 9 = some (.raise .badIndex ⟨2, false, some [.val 7, .val 8]⟩) := by decide +kernel

end Verif.Props
