import Verif.Conc.Array

/-!
What threads may see of an array: a list, where every operation happens at once, at the moment when it returns its result.
-/
namespace Verif.Conc

/-- An operation on a list. There is none which removes an element. -/
inductive Atomic : List Nat → Ev → List Nat → Prop
  | read (l : List Nat) (i v : Nat) : l[i]? = some v → Atomic l (.read i (.val v)) l
  | write (l : List Nat) (i v : Nat) : i < l.length → Atomic l (.write i v) (l.set i v)
  | casYes (l : List Nat) (i old new : Nat) : l[i]? = some old → Atomic l (.cas i old new (.val old)) (l.set i new)
  | casNo (l : List Nat) (i old new v : Nat) : l[i]? = some v → v ≠ old → Atomic l (.cas i old new (.val v)) l
  | push (l : List Nat) (v : Nat) : Atomic l (.push l.length v) (l ++ [v])
  | fill (l : List Nat) : Atomic l (.fill l.length) (l ++ [0])
  | range (l : List Nat) (i : Nat) : l.length ≤ i → Atomic l (.range i) l

inductive Atomics : List Nat → List Ev → List Nat → Prop
  | nil (l : List Nat) : Atomics l [] l
  | cons (l l' l'' : List Nat) (e : Ev) (es : List Ev) : Atomic l e l' → Atomics l' es l'' → Atomics l (e :: es) l''

end Verif.Conc
