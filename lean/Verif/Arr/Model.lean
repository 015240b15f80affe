/-
Arrays, one thread: core/kos_array.c.  A storage block is the list of its slots.

Simplifications.  Object type checks are left out (the object is an array).  In a single thread the old storage
block becomes unreachable once `copy_buf` returns, so only the current block is kept; following the `next` link of
a block (slot CLOSED) is therefore the outcome `bad`, and the theorems show that it does not happen.
`bad` is also the outcome of any access outside of a block or through a null pointer.
Weak compare-and-swap is retried by the code until it succeeds, so it is modelled as succeeding.
-/
namespace Verif.Arr

/-- Contents of a slot: `TOMBSTONE`, `CLOSED` or a value (core/kos_array.c:25-31). -/
inductive Cell (V : Type)
  | tomb
  | closed
  | val (v : V)
  deriving DecidableEq, Repr

inductive Err
  | readOnly | badIndex | empty | outOfMemory
  deriving DecidableEq, Repr

/-- `KOS_ARRAY`: `size`, the `KOS_READ_ONLY` flag and the storage (`none` is KOS_BADPTR). -/
structure A (V : Type) where
  size : Nat
  ro   : Bool
  data : Option (List (Cell V))
  deriving DecidableEq, Repr

/-- Outcome of an operation: a result or an exception, both with the array afterwards, or undefined behaviour. -/
inductive Out (V α : Type)
  | ok (a : α) (s : A V)
  | raise (e : Err) (s : A V)
  | bad
  deriving DecidableEq, Repr

variable {V : Type}

/-- core/kos_config.h:48. -/
def maxSize : Nat := 0x10000000

/-- Capacity granted for a requested non-zero capacity, core/kos_array.c:33-35 and 62: 32 bytes for the header and the
first slot, 8 bytes per slot, rounded up to 32 bytes (64-bit build). -/
def grant (c : Nat) : Nat := 1 + (((32 + (c - 1) * 8) + 31) / 32 * 32 - 32) / 8

/-- core/kos_array.c:48-72 `alloc_buffer` and the fill in 380.  `mem c` tells whether memory is available. -/
def allocBuffer (mem : Nat → Bool) (c : Nat) : Option (List (Cell V)) :=
  if c < maxSize ∧ mem c = true then some (List.replicate (grant c) .tomb) else none

/-- core/kos_array.c:74-152 `KOS_new_array`. -/
def newArray (mem : Nat → Bool) (void : V) (size : Nat) : Option (A V) :=
  if size < maxSize ∧ mem size = true then
    if size = 0 then some ⟨0, false, none⟩
    else some ⟨size, false, some (List.replicate size (.val void) ++ List.replicate (grant size - size) .tomb)⟩
  else none

def capacity (s : A V) : Nat :=
  match s.data with
  | none => 0
  | some b => b.length

/-- core/kos_array.c:166-225 `copy_buf`: `opens` is `num_slots_open`.  `none`: out of fuel or out of bounds. -/
def copyLoop : Nat → List (Cell V) → List (Cell V) → Nat → Nat → Option (List (Cell V) × List (Cell V))
  | 0, _, _, _, _ => none
  | fuel + 1, src, dst, opens, i =>
    match src[i]?, dst[i]? with
    | some value, some inDst =>
      let next := if i + 1 = src.length then 0 else i + 1
      match value, inDst with
      | .closed, _ => if opens = 0 then some (src, dst) else copyLoop fuel src dst opens next
      | value, .tomb =>
        let src' := src.set i .closed
        let dst' := dst.set i value
        if opens = 1 then some (src', dst') else copyLoop fuel src' dst' (opens - 1) next
      | _, _ => if opens = 0 then some (src, dst) else copyLoop fuel src dst opens next
    | _, _ => none

/-- `copy_buf` of a block none of whose slots has been moved yet: `num_slots_open` is the capacity, and the scan starts
at slot `(capacity - fuzz) % capacity`. -/
def copyBuf (src dst : List (Cell V)) : Option (List (Cell V)) :=
  (copyLoop (src.length + 1) src dst src.length ((src.length - src.length) % src.length)).map Prod.snd

/-- `bufidx` in core/kos_array.c:237 (also 276, 325): 32-bit arithmetic. -/
def bufIdx (idx : Int) (size : Nat) : Nat :=
  if idx < 0 then ((idx % 4294967296).toNat + size) % 4294967296 else idx.toNat

/-- core/kos_array.c:227-262 `KOS_array_read`. -/
def read (s : A V) (idx : Int) : Out V V :=
  let i := bufIdx idx s.size
  if i < s.size then
    match s.data with
    | none => .bad
    | some b =>
      match b[i]? with
      | none => .bad
      | some .tomb => .raise .badIndex s
      | some .closed => .bad
      | some (.val v) => .ok v s
  else .raise .badIndex s

/-- core/kos_array.c:264-307 `KOS_array_write`. -/
def write (s : A V) (idx : Int) (v : V) : Out V Unit :=
  if s.ro then .raise .readOnly s
  else
    let i := bufIdx idx s.size
    if i < s.size then
      match s.data with
      | none => .bad
      | some b =>
        match b[i]? with
        | none => .bad
        | some .tomb => .raise .badIndex s
        | some .closed => .bad
        | some (.val _) => .ok () { s with data := some (b.set i (.val v)) }
    else .raise .badIndex s

/-- core/kos_array.c:309-360 `KOS_array_cas`. -/
def cas [DecidableEq V] (s : A V) (idx : Int) (old new : V) : Out V V :=
  if s.ro then .raise .readOnly s
  else
    let i := bufIdx idx s.size
    if i < s.size then
      match s.data with
      | none => .bad
      | some b =>
        match b[i]? with
        | none => .bad
        | some .tomb => .raise .badIndex s
        | some .closed => .bad
        | some (.val cur) =>
          if cur ≠ old then .ok cur s
          else .ok cur { s with data := some (b.set i (.val new)) }
    else .raise .badIndex s

/-- core/kos_array.c:362-396 `resize_storage`. -/
def resizeStorage (mem : Nat → Bool) (s : A V) (newCap : Nat) : Out V Unit :=
  match allocBuffer mem newCap with
  | none => .raise .outOfMemory s
  | some nb =>
    match s.data with
    | none => .ok () { s with data := some nb }
    | some ob =>
      match copyBuf ob nb with
      | none => .bad
      | some d => .ok () { s with data := some d }

/-- The `while` loop of `KOS_array_reserve`, core/kos_array.c:433-441. -/
def reserveLoop (mem : Nat → Bool) : Nat → A V → Nat → Out V Unit
  | 0, _, _ => .bad
  | fuel + 1, s, newCap =>
    if newCap > capacity s then
      match resizeStorage mem s newCap with
      | .ok _ s' => reserveLoop mem fuel s' newCap
      | .raise e s' => .raise e s'
      | .bad => .bad
    else .ok () s

/-- core/kos_array.c:414-447 `KOS_array_reserve`. -/
def reserve (mem : Nat → Bool) (s : A V) (newCap : Nat) : Out V Unit :=
  if s.ro then .raise .readOnly s else reserveLoop mem 2 s newCap

/-- Fill slots `[from, from + n)`; core/kos_array.c:493-505. -/
def fillCells : Nat → List (Cell V) → Nat → Cell V → Option (List (Cell V))
  | 0, b, _, _ => some b
  | n + 1, b, i, c => if i < b.length then fillCells n (b.set i c) (i + 1) c else none

/-- The part of `KOS_array_resize` after the storage is large enough, core/kos_array.c:485-509. -/
def setSize (s : A V) (void : V) (size : Nat) : Out V Unit :=
  if size = s.size then .ok () { s with size := size }
  else
    match s.data with
    | none => .bad
    | some b =>
      match (if size > s.size then fillCells (size - s.size) b s.size (.val void)
             else fillCells (s.size - size) b size .tomb) with
      | none => .bad
      | some b' => .ok () { s with size := size, data := some b' }

/-- core/kos_array.c:449-511 `KOS_array_resize`. -/
def resize (mem : Nat → Bool) (s : A V) (void : V) (size : Nat) : Out V Unit :=
  if s.ro then .raise .readOnly s
  else
    let cap := capacity s
    if size > cap then
      match reserve mem s (if cap * 2 % 4294967296 > size then cap * 2 % 4294967296 else size) with
      | .ok _ s' => setSize s' void size
      | .raise e s' => .raise e s'
      | .bad => .bad
    else setSize s void size

/-- core/kos_utils.c:202-213 `KOS_fix_index`.  The sum cannot overflow because it mixes signs. -/
def fixIndex (idx : Int) (length : Nat) : Int :=
  let idx := if idx < 0 then idx + length else idx
  if idx < 0 then 0 else if idx > length then length else idx

/-- Copy loop of `KOS_array_slice`, core/kos_array.c:556-575: `n` slots starting at `i`. -/
def sliceLoop : Nat → List (Cell V) → Nat → Option (List V)
  | 0, _, _ => some []
  | n + 1, b, i =>
    match b[i]? with
    | none => none
    | some .tomb => some []
    | some .closed => none
    | some (.val v) => (sliceLoop n b (i + 1)).map (v :: ·)

/-- core/kos_array.c:513-594 `KOS_array_slice`; the result is the new array. -/
def slice (mem : Nat → Bool) (s : A V) (b e : Int) : Out V (A V) :=
  if mem 0 = false then .raise .outOfMemory s
  else if s.size = 0 then .ok ⟨0, false, none⟩ s
  else
    let b := fixIndex b s.size
    let e := fixIndex e s.size
    let e := if e < b then b else e
    let n := (e - b).toNat
    if n = 0 then .ok ⟨0, false, none⟩ s
    else
      match allocBuffer (V := V) mem n with
      | none => .raise .outOfMemory s
      | some db =>
        match s.data with
        | none => .bad
        | some sb =>
          match sliceLoop n sb b.toNat with
          | none => .bad
          | some vs => .ok ⟨vs.length, false, some (vs.map .val ++ List.replicate (db.length - vs.length) .tomb)⟩ s

/-- core/kos_threads.c:77-86, the ascending loop of `kos_atomic_move_ptr`. -/
def fwd {α : Type} : Nat → List α → Nat → Nat → Option (List α)
  | 0, b, _, _ => some b
  | n + 1, b, d, s =>
    match b[s]? with
    | none => none
    | some x => if d < b.length then fwd n (b.set d x) (d + 1) (s + 1) else none

/-- core/kos_threads.c:64-76, the descending loop of `kos_atomic_move_ptr`. -/
def bwd {α : Type} : Nat → List α → Nat → Nat → Option (List α)
  | 0, b, _, _ => some b
  | n + 1, b, d, s =>
    match b[s + n]? with
    | none => none
    | some x => if d + n < b.length then bwd n (b.set (d + n) x) d s else none

/-- core/kos_threads.c:57-87 `kos_atomic_move_ptr` inside one block.  Both loops test at the end, so a count of 0 copies
one slot; positions may be out of range (negative ones are, of course, outside of the block). -/
def moveIn {α : Type} (b : List α) (d s : Int) (n : Nat) : Option (List α) :=
  if s = d then some b
  else if d < 0 ∨ s < 0 then none
  else if s < d ∧ s + n > d then bwd (if n = 0 then 1 else n) b d.toNat s.toNat
  else fwd (if n = 0 then 1 else n) b d.toNat s.toNat

/-- `kos_atomic_move_ptr` from another block. -/
def fwdFrom {α : Type} : Nat → List α → List α → Nat → Nat → Option (List α)
  | 0, b, _, _, _ => some b
  | n + 1, b, src, d, s =>
    match src[s]? with
    | none => none
    | some x => if d < b.length then fwdFrom n (b.set d x) src (d + 1) (s + 1) else none

def moveFrom {α : Type} (b src : List α) (d s : Int) (n : Nat) : Option (List α) :=
  if d < 0 ∨ s < 0 then none else fwdFrom (if n = 0 then 1 else n) b src d.toNat s.toNat

/-- The moves of `KOS_array_insert`, core/kos_array.c:655-702, on the slots of the destination.
`src` is `none` when source and destination are the same object. -/
def insertMoves {α : Type} (buf : List α) (src : Option (List α)) (destLen db de sb se dd sd : Int) : Option (List α) :=
  if src ≠ none ∨ se ≤ db ∨ sb ≥ de ∨ sd = 0 then
    let r1 := if sd ≠ dd ∧ de < destLen then moveIn buf (de - dd + sd) de (destLen - de).toNat else some buf
    match r1 with
    | none => none
    | some b1 =>
      let sb := if src = none ∧ sb ≥ de then sb + (sd - dd) % 4294967296 else sb
      if sd ≠ 0 then
        match src with
        | none => moveIn b1 db sb sd.toNat
        | some o => moveFrom b1 o db sb sd.toNat
      else some b1
  else if dd ≥ sd then
    let r1 := if sb ≠ db then moveIn buf db sb sd.toNat else some buf
    match r1 with
    | none => none
    | some b1 => if de < destLen then moveIn b1 (db + sd) de (destLen - de).toNat else some b1
  else
    let mid := if db + sd < se then db + sd else se
    let r1 := if de < destLen then moveIn buf (db + sd) de (destLen - de).toNat else some buf
    match r1 with
    | none => none
    | some b1 =>
      let r2 := if mid > sb then moveIn b1 db sb (mid - sb).toNat else some b1
      match r2 with
      | none => none
      | some b2 => if mid < se then moveIn b2 (db + mid - sb) (mid + sd - dd) (se - mid).toNat else some b2

/-- Size of the source of `KOS_array_insert`. -/
def srcSize (dest : A V) : Option (A V) → Nat
  | none => dest.size
  | some o => o.size

/-- `src_buf` in `KOS_array_insert`; it is read only when there is something to insert (core/kos_array.c:652-653).
The inner `none` stands for the destination's own block. -/
def srcBlock (needed : Bool) : Option (A V) → Option (Option (List (Cell V)))
  | none => some none
  | some o => if needed then o.data.map some else some (some [])

/-- The moves on the destination's block; without a block nothing may be moved. -/
def insertData (data : Option (List (Cell V))) (srcBuf : Option (Option (List (Cell V)))) (destLen db de sb se dd sd : Int) :
    Option (Option (List (Cell V))) :=
  match data with
  | none => if sd = 0 ∧ de = destLen then some none else none
  | some b =>
    match srcBuf with
    | none => none
    | some sbuf => (insertMoves b sbuf destLen db de sb se dd sd).map some

/-- core/kos_array.c:596-710 `KOS_array_insert`; `src` is `none` when it is the same object as the destination. -/
def insert [DecidableEq V] (mem : Nat → Bool) (void : V) (dest : A V) (db de : Int) (src : Option (A V)) (sb se : Int) :
    Out V Unit :=
  if dest.ro then .raise .readOnly dest
  else
    let destLen := dest.size
    let db := fixIndex db destLen
    let de := fixIndex de destLen
    let de := if de < db then db else de
    let dd := de - db
    let srcLen := srcSize dest src
    let sb' := if sb ≠ se then fixIndex sb srcLen else sb
    let se' := if sb ≠ se then (if fixIndex se srcLen < fixIndex sb srcLen then fixIndex sb srcLen else fixIndex se srcLen) else se
    let sd := se' - sb'
    let newLen := (destLen - dd + sd).toNat
    let r1 := if sd > dd then resize mem dest void newLen else .ok () dest
    match r1 with
    | .raise e s => .raise e s
    | .bad => .bad
    | .ok _ d1 =>
      let srcBuf := srcBlock (sb' != se') src
      let moved := insertData d1.data srcBuf destLen db de sb' se' dd sd
      match moved with
      | none => .bad
      | some data =>
        let d2 := { d1 with data := data }
        if sd < dd then resize mem d2 void newLen else .ok () d2

/-- First loop of `KOS_array_push`, core/kos_array.c:736-753. -/
def pushLoop (mem : Nat → Bool) : Nat → A V → Out V Nat
  | 0, _ => .bad
  | fuel + 1, s =>
    let cap := capacity s
    let len := s.size
    if len ≥ cap then
      match reserve mem s (if cap * 2 % 4294967296 > len + 1 then cap * 2 % 4294967296 else len + 1) with
      | .ok _ s' => pushLoop mem fuel s'
      | .raise e s' => .raise e s'
      | .bad => .bad
    else .ok len { s with size := len + 1 }

/-- core/kos_array.c:712-778 `KOS_array_push`; the result is the index. -/
def push (mem : Nat → Bool) (s : A V) (v : V) : Out V Nat :=
  if s.ro then .raise .readOnly s
  else
    match pushLoop mem 2 s with
    | .raise e s' => .raise e s'
    | .bad => .bad
    | .ok len s' =>
      match s'.data with
      | none => .bad
      | some b =>
        match b[len]? with
        | none => .bad
        | some .closed => .bad
        | some _ => .ok len { s' with data := some (b.set len (.val v)) }

/-- core/kos_array.c:780-812 `KOS_array_pop`. -/
def pop (mem : Nat → Bool) (void : V) (s : A V) : Out V V :=
  if s.ro then .raise .readOnly s
  else if s.size = 0 then .raise .empty s
  else
    match read s ((s.size : Int) - 1) with
    | .raise e s' => .raise e s'
    | .bad => .bad
    | .ok v s' =>
      match resize mem s' void (s.size - 1) with
      | .raise e s'' => .raise e s''
      | .bad => .bad
      | .ok _ s'' => .ok v s''

/-- Loop of `KOS_array_fill`, core/kos_array.c:839-857, with `n` slots left. -/
def fillLoop : Nat → List (Cell V) → Nat → V → Option (List (Cell V))
  | 0, b, _, _ => some b
  | n + 1, b, i, v =>
    match b[i]? with
    | none => none
    | some .tomb => some b
    | some .closed => none
    | some (.val _) => fillLoop n (b.set i (.val v)) (i + 1) v

/-- core/kos_array.c:814-860 `KOS_array_fill`. -/
def fill (s : A V) (b e : Int) (v : V) : Out V Unit :=
  if s.ro then .raise .readOnly s
  else
    let b := fixIndex b s.size
    let e := fixIndex e s.size
    if b < e then
      match s.data with
      | none => .bad
      | some c =>
        match fillLoop (e - b).toNat c b.toNat v with
        | none => .bad
        | some c' => .ok () { s with data := some c' }
    else .ok () s

end Verif.Arr
