import Verif.Conc.Object

/-!
What several threads may expect of an object: every operation looks as if it happened at one moment between its beginning and its end.
-/
namespace Verif.PropTab

/-- The properties, and for every thread: what it is doing, if the property in question was absent at some moment since it has begun, and if the property
was written or deleted since it has begun. -/
structure Abs where
  map : Nat → Option Nat
  op : Nat → Op
  gone : Nat → Bool
  over : Nat → Bool

/-- Thread `t` begins an operation. -/
def Abs.start (a : Abs) (t : Nat) (o : Op) : Abs :=
  { a with
    op := fun u => if u = t then o else a.op u
    gone := fun u => if u = t then (a.map o.key).isNone else a.gone u
    over := fun u => if u = t then false else a.over u }

/-- Property `k` is written, or deleted. -/
def Abs.write (a : Abs) (k : Nat) (v : Option Nat) : Abs :=
  { a with
    map := fun x => if x = k then v else a.map x
    gone := fun u => a.gone u || ((a.op u).key == k && v.isNone)
    over := fun u => a.over u || (a.op u).key == k }

/-- What a finished operation may tell and what it changes.
An operation which ends with `lost` took place just before the write of another thread, which happened since it has begun.
An operation which ends with `absent` took place at a moment when there was no such property. -/
inductive Atomic : Abs → Ev → Abs → Prop
  | begin (a : Abs) (t : Nat) (o : Op) : Atomic a (.begin t o) (a.start t o)
  | found (a : Abs) (t k v : Nat) : a.op t = .get k → a.map k = some v → Atomic a (.found t (.val v)) a
  | absentGet (a : Abs) (t k : Nat) : a.op t = .get k → a.gone t = true → Atomic a (.absent t) a
  | absentDel (a : Abs) (t k : Nat) : a.op t = .del k → a.gone t = true → Atomic a (.absent t) a
  | set (a : Abs) (t k v : Nat) : a.op t = .set k v → Atomic a (.wrote t) (a.write k (some v))
  | del (a : Abs) (t k : Nat) : a.op t = .del k → Atomic a (.wrote t) (a.write k none)
  | lostSet (a : Abs) (t k v : Nat) : a.op t = .set k v → a.over t = true → Atomic a (.lost t) a
  | lostDel (a : Abs) (t k : Nat) : a.op t = .del k → a.over t = true → Atomic a (.lost t) a

inductive Atomics : Abs → List Ev → Abs → Prop
  | nil (a : Abs) : Atomics a [] a
  | cons (a a' a'' : Abs) (e : Ev) (es : List Ev) : Atomic a e a' → Atomics a' es a'' → Atomics a (e :: es) a''

/-- An object without properties; no thread has begun anything. -/
def Abs.empty : Abs := ⟨fun _ => none, fun _ => .get 0, fun _ => true, fun _ => false⟩

end Verif.PropTab
