import Verif.Utils.Compare
import Verif.Arr.Model

/-
`array.prototype.sort`: modules/kos_mod_base.c:2154-2425.

The expanded array has two or three words per element: key, index and (if there is a key function) value.  Here it is a list of
records, `val` is `none` if there is no third word; pointers into it are indices of records.  `cmp` is `KOS_compare` (C46).
`KOS_SMALL_INT` indices are the numbers themselves.  Checks of argument types are left out.
-/
namespace Verif.Base

open Verif.Utils (Cmp)

structure Rec (V : Type) where
  key : V
  idx : Nat
  val : Option V
  deriving DecidableEq, Repr

inductive SortOut (α : Type)
  | ok (a : α)
  /-- The key function threw an exception, or memory was refused. -/
  | raise
  /-- An internal marker is used as a value, an access outside of the array, or a failed assertion. -/
  | bad
  deriving DecidableEq, Repr

variable {V : Type}

/-- The array being sorted, as seen by `sort`: the slots of the storage block it has at the beginning, and its size. -/
structure Src (V : Type) where
  block : List (Arr.Cell V)
  size  : Nat
  deriving DecidableEq, Repr

/-- The key function: it gets a value and returns a key or throws, and it can change the array. -/
def KeyFun (V : Type) : Type := Src V → V → Option (V × Src V)

/-- The loop in modules/kos_mod_base.c:2191-2214, from element `i` on; `n` elements are left.  The size and the storage block have been
read before the loop. -/
def expandLoop (keyf : Option (KeyFun V)) : Nat → Nat → Src V → SortOut (List (Rec V) × Src V)
  | 0, _, src => .ok ([], src)
  | n + 1, i, src =>
    match src.block[i]? with
    | some (.val v) =>
      match keyf with
      | none =>
        match expandLoop keyf n (i + 1) src with
        | .ok (l, src) => .ok (⟨v, i, none⟩ :: l, src)
        | o => o
      | some f =>
        match f src v with
        | none => .raise
        | some (k, src) =>
          match expandLoop keyf n (i + 1) src with
          | .ok (l, src) => .ok (⟨k, i, some v⟩ :: l, src)
          | o => o
    | _ => .bad

/-- modules/kos_mod_base.c:2221-2240 `is_less_for_sort`. -/
def isLess (cmp : V → V → Cmp) (rev : Bool) (leftKey : V) (leftIdx : Nat) (rightKey : V) (rightIdx : Nat) : Bool :=
  let lt := if rev then Cmp.greater else Cmp.less
  let gt := if rev then Cmp.less else Cmp.greater
  let c := cmp leftKey rightKey
  if c = lt then true
  else if c = gt then false
  else if lt = .less then decide (leftIdx < rightIdx)
  else decide (leftIdx > rightIdx)

/-- The exchange of the records at `p` and `mid`, where the record at `p` has key `key` and index `idx`: lines 2265-2277 and
2290-2301. -/
def exchange (a : List (Rec V)) (p mid : Nat) (key : V) (idx : Nat) : Option (List (Rec V)) :=
  match a[mid]?, a[p]? with
  | some m, some x =>
    let a := a.set p { x with key := m.key, idx := m.idx }
    match a[mid]? with
    | none => none
    | some m =>
      let a := a.set mid { m with key := key, idx := idx }
      match a[p]?, a[mid]? with
      | some x, some m =>
        match x.val with
        | none => some a
        | some val =>
          let a := a.set p { x with val := m.val }
          match a[mid]? with
          | none => none
          | some m => some (a.set mid { m with val := some val })
      | _, _ => none
  | _, _ => none

/-- The loop in lines 2257-2281.  `mid` is the C variable plus one record. -/
def partLoop (cmp : V → V → Cmp) (rev : Bool) (pivotKey : V) (pivotIdx fin : Nat) :
    Nat → List (Rec V) → Nat → Nat → Option (List (Rec V) × Nat)
  | 0, _, _, _ => none
  | fuel + 1, a, mid, p =>
    if p < fin then
      match a[p]? with
      | none => none
      | some x =>
        if isLess cmp rev x.key x.idx pivotKey pivotIdx then
          match exchange a p mid x.key x.idx with
          | none => none
          | some a => partLoop cmp rev pivotKey pivotIdx fin fuel a (mid + 1) (p + 1)
        else partLoop cmp rev pivotKey pivotIdx fin fuel a mid (p + 1)
    else some (a, mid)

/-- modules/kos_mod_base.c:2242-2308 `sort_range`, with `depth` levels of recursion available. -/
def sortRange (cmp : V → V → Cmp) (rev : Bool) : Nat → List (Rec V) → Nat → Nat → Option (List (Rec V))
  | 0, _, _, _ => none
  | depth + 1, a, first, fin =>
    match a[fin - 1]? with
    | none => none
    | some pivot =>
      match partLoop cmp rev pivot.key pivot.idx (fin - 1) (fin - first + 1) a first first with
      | none => none
      | some (a, mid) =>
        match a[mid]? with
        | none => none
        | some x =>
          match (if isLess cmp rev pivot.key pivot.idx x.key x.idx then exchange a (fin - 1) mid pivot.key pivot.idx else some a) with
          | none => none
          | some a =>
            match (if first + 1 < mid then sortRange cmp rev depth a first mid else some a) with
            | none => none
            | some a => if mid + 1 < fin - 1 then sortRange cmp rev depth a (mid + 1) fin else some a

/-- modules/kos_mod_base.c:2310-2341 `copy_sort_results`: the values. -/
def results (l : List (Rec V)) : List V := l.map fun r => r.val.getD r.key

/-- The value in a slot. -/
def cellVal : Arr.Cell V → Option V
  | .val v => some v
  | _ => none

/-- modules/kos_mod_base.c:2373-2425 `sort`: what is written to the array's elements (2310-2341 asserts that the size is still the same and
writes to the current storage block without looking at its size).  `mem`: memory for the expanded array is available. -/
def sortArray (cmp : V → V → Cmp) (mem : Bool) (depth : Nat) (keyf : Option (KeyFun V)) (rev : Bool) (src : Src V) : SortOut (List V) :=
  if src.size > 1 then
    if mem then
      match expandLoop keyf src.size 0 src with
      | .ok (l, src') =>
        match sortRange cmp rev depth l 0 src.size with
        | none => .bad
        | some l => if src'.size = src.size then .ok (results l) else .bad
      | .raise => .raise
      | .bad => .bad
    else .raise
  else .ok ((src.block.take src.size).filterMap cellVal)

end Verif.Base
