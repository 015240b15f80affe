/-!
`array.prototype.insert`, modules/base.kos:352-407, over lists of elements.  An iterable gives its elements one after another; each may depend on what the array
has at that time, as when the iterable is an iterator over the same array, but their number does not.  `none` is an exception.  Positions are integers or void (`none`).
-/
namespace Verif.InsertIter

variable {V : Type}

/-- core/kos_utils.c:202-213 `KOS_fix_index` -/
def fixIndex (i : Int) (n : Nat) : Int :=
  let i := if i < 0 then i + n else i
  if i < 0 then 0 else if i > n then n else i

/-- modules/kos_mod_base.c:3835-3889 `insert_array`; insertion by `KOS_array_insert` is C17 -/
def insertArray (l : List V) (b e : Option Int) (xs : List V) : List V :=
  let b := fixIndex (b.getD 0) l.length
  let e := fixIndex (e.getD 9223372036854775807) l.length
  let e := if e < b then b else e
  l.take b.toNat ++ xs ++ l.drop e.toNat

/-- `this[i] = v` -/
def assign (l : List V) (i : Int) (v : V) : Option (List V) :=
  let i := if i < 0 then i + l.length else i
  if 0 ≤ i ∧ i < l.length then some (l.set i.toNat v) else none

/-- The loop, modules/base.kos:396-402: the array, `begin` and what is left of the iterable after it. -/
def loop (l : List V) (b e : Int) : List (List V → V) → Option (List V × Int × List (List V → V))
  | [] => some (l, b, [])
  | g :: gs =>
    match assign l b (g l) with
    | none => none
    | some l => if b + 1 ≥ e then some (l, b + 1, gs) else loop l (b + 1) e gs

/-- modules/base.kos:370-405, for what is not an array -/
def insertFrom (l : List V) (b e : Option Int) (gs : List (List V → V)) : Option (List V) :=
  let size : Int := l.length
  let b := b.getD 0
  let e := e.getD size
  let b := if b < 0 then b + size else b
  let e := if e < 0 then e + size else e
  let b := if b < 0 then 0 else b
  let e := if e > size then size else e
  let e := if e < b then b else e
  if b < e then
    match loop l b e gs with
    | none => none
    | some (l, b, gs) => some (insertArray l (some b) (some e) (gs.map (· l)))
  else some (insertArray l (some b) (some e) (gs.map (· l)))

inductive Src (V : Type) where
  | array (xs : List V)
  | iter (gs : List (List V → V))

def insert (l : List V) (b e : Option Int) : Src V → Option (List V)
  | .array xs => some (insertArray l b e xs)
  | .iter gs => insertFrom l b e gs

/-- `insert(pos, iterable)`, modules/base.kos:354-365: void is the end of the array. -/
def insert2 (l : List V) (pos : Option Int) (s : Src V) : Option (List V) :=
  if pos = none then insert l (some l.length) pos s else insert l pos pos s

/-- `insert(begin, end, iterable)` -/
def insert3 (l : List V) (b e : Option Int) (s : Src V) : Option (List V) := insert l b e s

end Verif.InsertIter
