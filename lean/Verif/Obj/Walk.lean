import Verif.Obj.Model

/-!
Iterating over properties: kos_new_object_walk and kos_object_walk, core/kos_object.c:1049-1217.

One turn of the loop of kos_object_walk is one step, so that calls and anything between them are sequences of steps.  `returned_keys` is a set
of keys: it is an object of its own which nobody else uses (C22), and memory for it is not refused.  The index does not reach 2^32.
-/
namespace Verif.Obj

variable {K V : Type} [DecidableEq K]

/-- `KOS_ITERATOR` -/
structure Walk (K : Type) where
  deep : Bool
  index : Nat
  /-- `prop_obj` -/
  prop : Nat
  /-- `key_table` -/
  table : Option Nat
  /-- `returned_keys` -/
  keys : List K
  deriving Repr

/-- core/kos_object.c:1049-1096 `kos_new_object_walk` -/
def newWalk (w : World K V) (o : Nat) (deep : Bool) : Except Err (Walk K) := do
  let ob ← w.obj o
  .ok { deep := deep, index := 0, prop := o, table := if ob.props then ob.table else none, keys := [] }

/-- core/kos_object.c:1132-1158: the next prototype with a table, or the end of the chain -/
def climb (w : World K V) : Nat → Nat → Except Err (Nat × Option Nat)
  | 0, _ => .error .fuel
  | fuel + 1, o => do
    let ob ← w.obj o
    match ob.proto with
    | none => .ok (o, none)
    | some p =>
      let pb ← w.obj p
      match (if pb.props then pb.table else none) with
      | some t => .ok (p, some t)
      | none => climb w fuel p

/-- What a turn of the loop does. -/
inductive Turn (K V : Type) where
  | more
  | item (k : K) (v : V)
  | done
  deriving DecidableEq, Repr

/-- core/kos_object.c:1197-1211 -/
def readItem (H : K → Nat) (w : World K V) (s : Walk K) (k : K) (x : Val V) : Except Err (Walk K × Turn K V) :=
  match x with
  | .tomb => .ok (s, .more)
  | .val v => .ok (s, .item k v)
  | _ => do
    let r ← getProperty H w s.prop k true
    match r with
    | none => .ok (s, .more)
    | some v => .ok (s, .item k v)

/-- core/kos_object.c:1111-1119: the capacity of the table -/
def Walk.cap (w : World K V) (s : Walk K) : Except Err Nat :=
  match s.table with
  | none => .ok 0
  | some t => do
    let tb ← w.table t
    .ok tb.cap

/-- core/kos_object.c:1128-1168 -/
def walkUp (w : World K V) (s : Walk K) : Except Err (Walk K × Turn K V) :=
  if s.deep then do
    let (p, t) ← climb w (w.objs.length + 1) s.prop
    match t with
    | some t => .ok ({ s with prop := p, table := some t, index := 0 }, .more)
    | none => .ok ({ s with prop := p }, .done)
  else .ok (s, .done)

/-- core/kos_object.c:1170-1211: slot `i` of table `t` -/
def walkSlot (H : K → Nat) (w : World K V) (s : Walk K) (t i : Nat) : Except Err (Walk K × Turn K V) := do
  let tb ← w.table t
  let x ← tb.item i
  match x.key with
  | none => .ok (s, .more)
  | some k =>
    if s.deep then
      if k ∈ s.keys then .ok (s, .more)
      else readItem H w { s with keys := k :: s.keys } k x.val
    else readItem H w s k x.val

/-- core/kos_object.c:1121-1212: one turn -/
def walkStep (H : K → Nat) (w : World K V) (s : Walk K) : Except Err (Walk K × Turn K V) := do
  let cap ← s.cap w
  if s.index ≥ cap then walkUp w { s with index := s.index + 1 }
  else
    match s.table with
    | none => .error .ub
    | some t => walkSlot H w { s with index := s.index + 1 } t s.index

end Verif.Obj
