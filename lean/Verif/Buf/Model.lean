import Verif.Arr.Model
/-
Buffers, one thread: core/kos_buffer.c.  A storage block is the list of its bytes.

Object type checks are left out.  The contents of freshly allocated memory are unspecified: they come from an oracle
`junk`.  Whether an allocation succeeds comes from an oracle `mem`.  `bad` is any access outside of a block, through a
null pointer, or an endless loop.
-/
namespace Verif.Buf

open Verif.Arr (fixIndex)

inductive Err
  | readOnly | external | outOfMemory | empty | sizeLimit | badIndex | badSize | badByte
  deriving DecidableEq, Repr

/-- `KOS_BUFFER`: `size`, the flags `KOS_READ_ONLY` and `KOS_EXTERNAL_STORAGE`, and the storage. -/
structure B where
  size : Nat
  ro   : Bool
  ext  : Bool
  data : Option (List Nat)
  deriving DecidableEq, Repr

inductive Out (α : Type)
  | ok (a : α) (s : B)
  | raise (e : Err) (s : B)
  | bad
  deriving DecidableEq, Repr

/-- Oracles of one operation. -/
structure Env where
  mem  : Nat → Bool
  junk : Nat → Nat

/-- core/kos_buffer.c:77 and 174: round up to 64 in 32-bit arithmetic. -/
def alignUp (n : Nat) : Nat := (n + 63) % 4294967296 / 64 * 64

/-- core/kos_buffer.c:22-72 `alloc_buffer`. -/
def alloc (env : Env) (cap : Nat) : Option (List Nat) :=
  if env.mem cap then some ((List.range cap).map env.junk) else none

def capacity (s : B) : Nat :=
  match s.data with
  | none => 0
  | some d => d.length

/-- core/kos_buffer.c:74-106 `KOS_new_buffer`; `none` if there is no memory. -/
def newBuffer (env : Env) (size : Nat) : Option B :=
  let cap := alignUp size
  if cap ≠ 0 then
    match alloc env cap with
    | none => none
    | some d => some ⟨size, false, false, some d⟩
  else some ⟨size, false, false, none⟩

/-- core/kos_buffer.c:108-147 `KOS_new_external_buffer` around memory holding `bytes`. -/
def newExternal (bytes : List Nat) : B := ⟨bytes.length, false, true, some bytes⟩

/-- core/kos_buffer.c:161-218 `KOS_buffer_reserve`.  In one thread the `continue` repeats for ever. -/
def reserve (env : Env) (s : B) (newCap : Nat) : Out Unit :=
  let newCap := alignUp newCap
  if s.ro then .raise .readOnly s
  else if s.ext then .raise .external s
  else if newCap > capacity s then
    match alloc env newCap with
    | none => .raise .outOfMemory s
    | some d =>
      if s.size > capacity s then .bad
      else if s.size ≠ 0 then
        match s.data with
        | none => .bad
        | some old => .ok () { s with data := some (old.take s.size ++ d.drop s.size) }
      else .ok () { s with data := some d }
  else .ok () s

/-- core/kos_buffer.c:220-257 `KOS_buffer_resize`. -/
def resize (env : Env) (s : B) (size : Nat) : Out Unit :=
  if s.ro then .raise .readOnly s
  else if size > s.size ∧ size > capacity s then
    let cap2 := capacity s * 2 % 4294967296
    match reserve env s (if size > cap2 then size else cap2) with
    | .ok _ s' => .ok () { s' with size := size }
    | .raise e s' => .raise e s'
    | .bad => .bad
  else .ok () { s with size := size }

/-- core/kos_buffer.c:302-326 `KOS_buffer_data_volatile`; the pointer is not represented. -/
def dataVolatile (s : B) : Out Unit :=
  if s.ro then .raise .readOnly s
  else
    match s.data with
    | none => .raise .empty s
    | some _ => .ok () s

/-- core/kos_buffer.c:371-376: set the size and return the address of the room (here: its offset). -/
def finishRoom (s : B) (oldSize newSize : Nat) : Out Nat :=
  match dataVolatile { s with size := newSize } with
  | .ok _ s' => .ok oldSize s'
  | .raise e s' => .raise e s'
  | .bad => .bad

/-- core/kos_buffer.c:328-381 `KOS_buffer_make_room`; the result is the offset of the new room. -/
def makeRoom (env : Env) (s : B) (delta : Nat) : Out Nat :=
  if s.ro then .raise .readOnly s
  else
    let oldSize := s.size
    let newSize := (oldSize + delta) % 4294967296
    let cap := capacity s
    let offHeap := if newSize > 1024 then newSize else 1024
    if delta > 4294967295 - oldSize then .raise .sizeLimit s
    else
      let cap2 := cap * 2 % 4294967296
      let r := if offHeap > cap then reserve env s (if newSize > cap2 then newSize else cap2) else .ok () s
      match r with
      | .raise e s' => .raise e s'
      | .bad => .bad
      | .ok _ s' => finishRoom s' oldSize newSize

/-- Overwrite bytes from `pos` on; `none` outside of the block. -/
def putBytes (d : List Nat) (pos : Nat) (bytes : List Nat) : Option (List Nat) :=
  if pos + bytes.length ≤ d.length then some (d.take pos ++ bytes ++ d.drop (pos + bytes.length)) else none

/-- Read `n` bytes at `pos`. -/
def getBytes (d : List Nat) (pos n : Nat) : Option (List Nat) :=
  if pos + n ≤ d.length then some ((d.drop pos).take n) else none

/-- core/kos_buffer.c:383-411 `KOS_buffer_fill`. -/
def fill (s : B) (b e : Int) (v : Nat) : Out Unit :=
  if s.ro then .raise .readOnly s
  else
    let b := fixIndex b s.size
    let e := fixIndex e s.size
    if b < e then
      match s.data with
      | none => .bad
      | some d =>
        match putBytes d b.toNat (List.replicate (e - b).toNat v) with
        | none => .bad
        | some d' => .ok () { s with data := some d' }
    else .ok () s

/-- core/kos_buffer.c:413-457 `KOS_buffer_copy`; `src` is `none` when it is the same object as the destination. -/
def copy (s : B) (db : Int) (src : Option B) (sb se : Int) : Out Unit :=
  if s.ro then .raise .readOnly s
  else
    let srcB := src.getD s
    let db := fixIndex db s.size
    let sb := fixIndex sb srcB.size
    let se := fixIndex se srcB.size
    if sb < se ∧ db < s.size then
      let size := (if se - sb < s.size - db then se - sb else s.size - db).toNat
      match s.data, srcB.data with
      | some dd, some sd =>
        -- 447-450: memcpy is used only when the ranges do not overlap, so both branches read the source and then write it
        match getBytes sd sb.toNat size with
        | none => .bad
        | some bytes =>
          match putBytes dd db.toNat bytes with
          | none => .bad
          | some d' => .ok () { s with data := some d' }
      | _, _ => .bad
    else .ok () s

/-- core/kos_buffer.c:459-505 `KOS_buffer_slice`; the result is the new buffer. -/
def slice (env : Env) (s : B) (b e : Int) : Out B :=
  if s.size ≠ 0 then
    let b := fixIndex b s.size
    let e := fixIndex e s.size
    let e := if e < b then b else e
    let n := (e - b).toNat
    match newBuffer env n with
    | none => .raise .outOfMemory s
    | some r =>
      if n ≠ 0 then
        match r.data, s.data with
        | some rd, some sd =>
          match getBytes sd b.toNat n with
          | none => .bad
          | some bytes =>
            match putBytes rd 0 bytes with
            | none => .bad
            | some d' => .ok { r with data := some d' } s
        | _, _ => .bad
      else .ok r s
  else
    match newBuffer env 0 with
    | none => .raise .outOfMemory s
    | some r => .ok r s

/-- All bytes, as a reader of `size` bytes at `KOS_buffer_data_const` (inc/kos_buffer.h:50) gets them. -/
def contents (s : B) : Option (List Nat) :=
  if s.size = 0 then some []
  else
    match s.data with
    | none => none
    | some d => getBytes d 0 s.size

/-- Index computation in core/kos_vm.c:1175-1178 and 1204-1207: `idx += (int)size` (`none` if the sum overflows), then an
unsigned comparison. -/
def elemIdx (idx : Int) (size : Nat) : Option Nat :=
  let isize : Int := if size < 2147483648 then size else (size : Int) - 4294967296
  let sum := if idx < 0 then idx + isize else idx
  if sum < -2147483648 ∨ sum > 2147483647 then none else some (sum % 4294967296).toNat

/-- core/kos_vm.c:1166-1188 `read_buffer`. -/
def readElem (s : B) (idx : Int) : Out Nat :=
  match elemIdx idx s.size with
  | none => .bad
  | some i =>
    if i ≥ s.size then .raise .badIndex s
    else
      match s.data with
      | none => .bad
      | some d =>
        match d[i]? with
        | none => .bad
        | some v => .ok v s

/-- core/kos_vm.c:1190-1219 `write_buffer` with an integer value.  For a read-only buffer an exception is left pending and
the function reports success; this is modelled as an exception. -/
def writeElem (s : B) (idx : Int) (v : Int) : Out Unit :=
  if v < 0 ∨ v > 255 then .raise .badByte s
  else
    match elemIdx idx s.size with
    | none => .bad
    | some i =>
      if i ≥ s.size then .raise .badIndex s
      else
        match dataVolatile s with
        | .raise e s' => .raise e s'
        | .bad => .bad
        | .ok _ s' =>
          match s'.data with
          | none => .bad
          | some d =>
            match putBytes d i [v.toNat] with
            | none => .bad
            | some d' => .ok () { s' with data := some d' }

/-- modules/kos_mod_base.c:2563-2590 `resize` for buffers with numeric arguments. -/
def baseResize (env : Env) (s : B) (size : Int) (v : Int) : Out Unit :=
  let oldSize := s.size
  if size < 0 ∨ size > 2147483647 then .raise .badSize s
  else if v < 0 ∨ v > 255 then .raise .badByte s
  else
    match resize env s size.toNat with
    | .raise e s' => .raise e s'
    | .bad => .bad
    | .ok _ s' =>
      if size > oldSize then
        match dataVolatile s' with
        | .raise e s'' => .raise e s''
        | .bad => .bad
        | .ok _ s'' =>
          match s''.data with
          | none => .bad
          | some d =>
            match putBytes d oldSize (List.replicate (size.toNat - oldSize) v.toNat) with
            | none => .bad
            | some d' => .ok () { s'' with data := some d' }
      else .ok () s'

/-- modules/base.kos:445-464, the value of `begin`. -/
def insBegin (size : Int) (three : Bool) (b : Option Int) : Int :=
  let b := if ¬ three ∧ b = none then some size else b
  let b := b.getD 0
  let b := if b < 0 then b + size else b
  if b < 0 then 0 else b

/-- modules/base.kos:437-470, the value of `end`. -/
def insEnd (size : Int) (three : Bool) (b e : Option Int) (begin : Int) : Int :=
  let e := if three then e else b
  let e := e.getD size
  let e := if e < 0 then e + size else e
  let e := if e > size then size else e
  if e < begin then begin else e

/-- modules/base.kos:476-492, once the positions are known.  `src` is `none` when the inserted buffer is `this` itself; its
size is then read again after each resize, as in the Kos source. -/
def insertAt (env : Env) (s : B) (b e : Int) (src : Option B) : Out Unit :=
  let size : Int := s.size
  let isize := fun (this : B) => ((src.getD this).size : Int)
  let newSize := size + isize s + b - e
  match (if newSize > size then baseResize env s newSize 0 else .ok () s) with
  | .raise er s1 => .raise er s1
  | .bad => .bad
  | .ok _ s1 =>
    match (if e < size then copy s1 (b + isize s1) none e 9223372036854775807 else .ok () s1) with
    | .raise er s2 => .raise er s2
    | .bad => .bad
    | .ok _ s2 =>
      match (if newSize < size then baseResize env s2 newSize 0 else .ok () s2) with
      | .raise er s3 => .raise er s3
      | .bad => .bad
      | .ok _ s3 =>
        if isize s3 ≠ 0 then copy s3 b src 0 9223372036854775807 else .ok () s3

/-- modules/base.kos:435-493 `buffer.prototype.insert` for integer or void positions, once `iterable` is a buffer.
`three` tells whether the three-argument form is used.  Integer overflow happens in the
intermediate sums only for `begin` near 2^63, where the wrapped result is the same. -/
def insert (env : Env) (s : B) (three : Bool) (b e : Option Int) (src : Option B) : Out Unit :=
  let begin := insBegin s.size three b
  insertAt env s begin (insEnd s.size three b e begin) src

end Verif.Buf
