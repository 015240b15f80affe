/-!
Model of property tables, core/kos_object.c, for one thread.

Keys are compared with `=` (see C26 for `KOS_string_compare`) and have any hash function.  Tables live in a heap indexed by numbers; an old
table stays in the heap after it has been replaced.  Allocation is an oracle: `mem n c` tells if the n-th request, for a table of `c` slots, is
granted.  Allocated sizes are cut to 32 bits as in the C code; a write behind the end of an allocated block is undefined behaviour.
-/
namespace Verif.Obj

/-- Undefined behaviour (or a failed assertion), or a loop which has not ended within its fuel. -/
inductive Err where
  | ub
  | fuel
  deriving DecidableEq, Repr

/-- Contents of a value slot; core/kos_object.c:54-66. -/
inductive Val (V : Type) where
  | tomb
  | closed
  | reserved
  | val (v : V)
  deriving DecidableEq, Repr

/-- core/kos_object_internal.h:148-152 `KOS_PITEM`; `key = none` is `KOS_BADPTR`. -/
structure Item (K V : Type) where
  key : Option K
  hash : Nat
  val : Val V
  deriving DecidableEq, Repr

/-- core/kos_object_internal.h:154-162 `KOS_OBJECT_STORAGE` -/
structure Table (K V : Type) where
  cap : Nat
  used : Nat
  opn : Nat
  copies : Nat
  next : Option Nat
  items : Nat → Item K V

def Table.setItem {K V : Type} (t : Table K V) (i : Nat) (x : Item K V) : Table K V :=
  { t with items := fun j => if j = i then x else t.items j }

/-- `items + idx`, which must lie inside of the table. -/
def Table.item {K V : Type} (t : Table K V) (i : Nat) : Except Err (Item K V) :=
  if i < t.cap then .ok (t.items i) else .error .ub

variable {K V : Type} [DecidableEq K]

/-- core/kos_object.c:174-196 `is_key_equal` -/
def isKeyEqual (key : K) (hash : Nat) (propKey : K) (x : Item K V) : Bool :=
  if x.hash ≠ 0 ∧ hash ≠ x.hash then false else decide (key = propKey)

/-- core/kos_object.c:156-158: number of bytes, as passed in a `uint32_t`.  64-bit pointers: the header of a table takes 32 bytes, a
slot 24. -/
def allocSize (cap : Nat) : Nat := (56 + (cap + 4294967295) % 4294967296 * 24) % 4294967296

/-- core/kos_object.c:404-416: a fresh table; the loop writes every slot. -/
def newTable (cap : Nat) : Except Err (Table K V) :=
  if 32 + 24 * cap ≤ allocSize cap then .ok ⟨cap, 0, cap, 0, none, fun _ => ⟨none, 0, .tomb⟩⟩ else .error .ub

/-- Loop of `salvage_item`, core/kos_object.c:231-252: the slot for the key in the new table, which is claimed if it is empty. -/
def claim (key : K) (hash : Nat) : Nat → Table K V → Nat → Except Err (Table K V × Nat)
  | 0, _, _ => .error .fuel
  | fuel + 1, t, idx => do
    let x ← t.item idx
    match x.key with
    | none => .ok ({ t.setItem idx { x with key := some key, hash := hash } with used := t.used + 1 }, idx)
    | some k =>
      if isKeyEqual key hash k x then .ok (t, idx)
      else claim key hash fuel t ((idx + 1) &&& (t.cap - 1))

/-- core/kos_object.c:203-276 `salvage_item` for slot `i` of the old table. -/
def salvage (old new : Table K V) (i : Nat) : Except Err (Table K V × Table K V × Bool) := do
  let x ← old.item i
  match x.val with
  | .tomb => .ok (old.setItem i { x with val := .closed }, new, true)
  | .closed => .ok (old, new, false)
  | v =>
    match x.key with
    | none => .error .ub
    | some k =>
      let (new, idx) ← claim k x.hash new.cap new (x.hash &&& (new.cap - 1))
      let y ← new.item idx
      match y.val with
      | .tomb =>
        let old := old.setItem i { x with val := .closed }
        .ok (old, new.setItem idx { y with val := v }, true)
      | _ => .ok (old, new, false)

/-- Loop of `copy_table`, core/kos_object.c:298-318. -/
def copyLoop : Nat → Table K V → Table K V → Nat → Except Err (Table K V × Table K V)
  | 0, _, _, _ => .error .fuel
  | fuel + 1, old, new, i => do
    let (old, new, done) ← salvage old new i
    if done then
      let old := { old with opn := old.opn - 1 }
      if old.opn = 0 then .ok (old, new) else copyLoop fuel old new ((i + 1) &&& (old.cap - 1))
    else if old.opn = 0 then .ok (old, new)
    else copyLoop fuel old new ((i + 1) &&& (old.cap - 1))

/-- core/kos_object.c:278-336 `copy_table` without the final write to the object.  The counter of active copies goes up and down again. -/
def copyTable (old new : Table K V) : Except Err (Table K V × Table K V) :=
  copyLoop old.cap old new ((64 * (old.cap - old.opn)) % 4294967296 &&& (old.cap - 1))

/-- An object, or another value (`props := false`) with only a prototype. -/
structure Object where
  props : Bool
  proto : Option Nat
  table : Option Nat
  deriving DecidableEq, Repr

structure World (K V : Type) where
  tables : List (Table K V)
  objs : List Object
  /-- allocation requests for tables so far -/
  reqs : Nat

def World.table (w : World K V) (i : Nat) : Except Err (Table K V) :=
  match w.tables[i]? with
  | some t => .ok t
  | none => .error .ub

def World.obj (w : World K V) (i : Nat) : Except Err Object :=
  match w.objs[i]? with
  | some o => .ok o
  | none => .error .ub

/-- core/kos_object.c:351-374 `need_resize` -/
def needResize (t : Table K V) (reprobes : Nat) : Bool :=
  if t.cap ≥ 16 ∧ reprobes < 8 then false else ¬ (t.used * 4 % 4294967296 < t.cap * 3 % 4294967296)

/-- core/kos_object.c:376-453 `resize_prop_table`; the result tells if it succeeded.  With one thread nobody else can be resizing, that is
`next` must be `none`. -/
def resize (mem : Nat → Nat → Bool) (w : World K V) (o : Nat) (old : Option Nat) (factor : Nat) : Except Err (World K V × Bool) := do
  let ob ← w.obj o
  match old with
  | none =>
    let cap := 4
    let n := w.reqs
    let w := { w with reqs := n + 1 }
    if mem n cap then
      let t ← newTable cap
      .ok ({ w with tables := w.tables ++ [t], objs := w.objs.set o { ob with table := some w.tables.length } }, true)
    else .ok (w, false)
  | some oi =>
    let ot ← w.table oi
    let cap := if ot.cap ≠ 0 then ot.cap * factor % 4294967296 else 4
    if ot.next.isSome then .error .ub
    else
      let n := w.reqs
      let w := { w with reqs := n + 1 }
      if mem n cap then
        let t ← newTable cap
        let ni := w.tables.length
        let (ot, t) ← copyTable { ot with next := some ni } t
        .ok ({ w with
          tables := w.tables.set oi ot ++ [t]
          objs := if ob.table = some oi then w.objs.set o { ob with table := some ni } else w.objs }, true)
      else .ok (w, false)

inductive Get (V : Type) where
  | tryNew
  | tryProto
  | found (v : V)
  deriving DecidableEq, Repr

/-- Loop of `find_property`, core/kos_object.c:507-540; the number of reprobes left is the recursion argument. -/
def findLoop (t : Table K V) (key : K) (hash : Nat) (idx n : Nat) : Except Err (Get V) := do
  let i := idx &&& (t.cap - 1)
  let x ← t.item i
  match x.key with
  | none => .ok .tryProto
  | some k =>
    if x.val matches .closed then .ok .tryNew
    else if isKeyEqual key hash k x then
      match x.val with
      | .tomb => .ok .tryProto
      | .val v => .ok (.found v)
      | _ => .error .ub
    else
      match n with
      | 0 => .ok .tryProto
      | n + 1 => findLoop t key hash (i + 1) n

/-- core/kos_object.c:497-543 `find_property` -/
def findProperty (t : Table K V) (key : K) (hash : Nat) : Except Err (Get V) := findLoop t key hash hash t.cap

/-- core/kos_object.c:470-489 `find_valid_prototype`, from an object on: the next object with a table. -/
def findValid (w : World K V) : Nat → Option Nat → Except Err (Option (Nat × Nat))
  | 0, _ => .error .fuel
  | fuel + 1, o =>
    match o with
    | none => .ok none
    | some o => do
      let ob ← w.obj o
      match (if ob.props then ob.table else none) with
      | some t => .ok (some (o, t))
      | none => findValid w fuel ob.proto

/-- Loop of `KOS_get_property_with_depth`, core/kos_object.c:587-612, in table `ti` of object `o`.  With one thread the branch for a
table being copied is never taken (`Err.ub` here). -/
def getLoop (w : World K V) (key : K) (hash : Nat) (shallow : Bool) : Nat → Nat → Nat → Except Err (Option V)
  | 0, _, _ => .error .fuel
  | fuel + 1, o, ti => do
    let t ← w.table ti
    let r ← findProperty t key hash
    match r with
    | .found v => .ok (some v)
    | .tryNew => .error .ub
    | .tryProto =>
      if shallow then .ok none
      else
        let ob ← w.obj o
        let nx ← findValid w (w.objs.length + 1) ob.proto
        match nx with
        | none => .ok none
        | some (o, ti) => getLoop w key hash shallow fuel o ti

/-- core/kos_object.c:545-614 `KOS_get_property_with_depth`; `none` is the exception "no such property". -/
def getProperty (hash : K → Nat) (w : World K V) (o : Nat) (key : K) (shallow : Bool) : Except Err (Option V) := do
  let ob ← w.obj o
  let start ← if shallow then .ok (if ob.props then ob.table.map fun t => (o, t) else none) else findValid w (w.objs.length + 1) (some o)
  match start with
  | none => .ok none
  | some (o, t) => getLoop w key (hash key) shallow (w.objs.length + 1) o t

/-- Where the loop of `set_property` ends: at an empty slot, at the slot of the key, or after too many reprobes. -/
inductive Probe where
  | empty (i n : Nat)
  | match (i n : Nat)
  | full
  deriving DecidableEq, Repr

/-- Loop of `set_property`, core/kos_object.c:655-692, up to the slot; `n` reprobes so far. -/
def probe (t : Table K V) (key : K) (hash : Nat) : Nat → Nat → Nat → Except Err Probe
  | 0, _, _ => .error .fuel
  | fuel + 1, idx, n => do
    let i := idx &&& (t.cap - 1)
    let x ← t.item i
    match x.key with
    | none => .ok (.empty i n)
    | some k =>
      if isKeyEqual key hash k x then .ok (.match i n)
      else if n > 8 then .ok .full
      else probe t key hash fuel (i + 1) (n + 1)

inductive SetRes (V : Type) where
  | failed
  | again
  | setter (v : V)
  | success (n : Nat)
  deriving DecidableEq, Repr

/-- core/kos_object.c:636-731 `set_property`; a deletion writes `tomb`.  `dyn v` tells if `v` is a dynamic property.  The result includes the
table to use next. -/
def setOnce (mem : Nat → Nat → Bool) (dyn : V → Bool) (w : World K V) (o ti : Nat) (key : K) (hash : Nat) (v : Val V) :
    Except Err (World K V × Nat × SetRes V) := do
  let t ← w.table ti
  let p ← probe t key hash 11 hash 0
  match p with
  | .full =>
    let (w, ok) ← resize mem w o (some ti) 2
    if ok then
      let ob ← w.obj o
      match ob.table with
      | some ti => .ok (w, ti, .again)
      | none => .error .ub
    else .ok (w, ti, .failed)
  | .empty i n =>
    if v matches .tomb then .ok (w, ti, .success n)
    else
      let x := t.items i
      let x := { x with key := some key, hash := hash }
      let t := { t with used := t.used + 1 }
      match x.val with
      | .closed => .error .ub
      | .val d =>
        if dyn d then .ok ({ w with tables := w.tables.set ti (t.setItem i x) }, ti, .setter d)
        else .ok ({ w with tables := w.tables.set ti (t.setItem i { x with val := v }) }, ti, .success n)
      | _ => .ok ({ w with tables := w.tables.set ti (t.setItem i { x with val := v }) }, ti, .success n)
  | .match i n =>
    let x := t.items i
    match x.val with
    | .closed => .error .ub
    | .val d =>
      if dyn d ∧ ¬ (v matches .tomb) then .ok (w, ti, .setter d)
      else .ok ({ w with tables := w.tables.set ti (t.setItem i { x with val := v }) }, ti, .success n)
    | _ => .ok ({ w with tables := w.tables.set ti (t.setItem i { x with val := v }) }, ti, .success n)

/-- Outcome of an operation on properties. -/
inductive Out (V : Type) where
  | ok
  | val (v : V)
  | missing
  | setter (v : V)
  | noProps
  | oom
  deriving DecidableEq, Repr

/-- Loop of `KOS_set_property`, core/kos_object.c:783-795, and the resize at its end. -/
def setLoop (mem : Nat → Nat → Bool) (dyn : V → Bool) (o : Nat) (key : K) (hash : Nat) (v : Val V) :
    Nat → World K V → Nat → Except Err (World K V × Out V)
  | 0, _, _ => .error .fuel
  | fuel + 1, w, ti => do
    let (w, ti, r) ← setOnce mem dyn w o ti key hash v
    match r with
    | .again => setLoop mem dyn o key hash v fuel w ti
    | .failed => .ok (w, .oom)
    | .setter d => .ok (w, .setter d)
    | .success n =>
      let t ← w.table ti
      if needResize t n then
        let (w, ok) ← resize mem w o (some ti) 2
        .ok (w, if ok then .ok else .oom)
      else .ok (w, .ok)

/-- core/kos_object.c:733-831 `KOS_set_property` -/
def setProperty (mem : Nat → Nat → Bool) (dyn : V → Bool) (hash : K → Nat) (w : World K V) (o : Nat) (key : K) (v : Val V) :
    Except Err (World K V × Out V) := do
  let ob ← w.obj o
  if ob.props then
    match ob.table with
    | some ti => setLoop mem dyn o key (hash key) v 40 w ti
    | none =>
      if v matches .tomb then .ok (w, .ok)
      else
        let (w, ok) ← resize mem w o none 0
        if ok then
          let ob ← w.obj o
          match ob.table with
          | some ti => setLoop mem dyn o key (hash key) v 40 w ti
          | none => .error .ub
        else .ok (w, .oom)
  else .ok (w, .noProps)

/-- core/kos_object.c:833-849 `KOS_delete_property` -/
def deleteProperty (mem : Nat → Nat → Bool) (dyn : V → Bool) (hash : K → Nat) (w : World K V) (o : Nat) (key : K) :
    Except Err (World K V × Out V) := do
  let ob ← w.obj o
  if ob.props then setProperty mem dyn hash w o key .tomb else .ok (w, .ok)

end Verif.Obj
