/-!
Model of the vectors of bytes, core/kos_memory.c:131-212, on 64-bit machines.

A cell of memory is a byte or not initialised.  Whether `KOS_malloc` and `KOS_realloc` succeed is part of each call; they never give 2^63 bytes or
more.  A block which `KOS_realloc` returns is a new one.
-/
namespace Verif.Vect

abbrev Cell := Option Nat

inductive Err where
  /-- an access outside of a buffer, or to one which has been freed; a bad argument of `KOS_free` -/
  | ub
  | assert
  deriving DecidableEq, Repr

def limit : Nat := 9223372036854775808

/-- `size_t` -/
def add64 (a b : Nat) : Nat := (a + b) % 18446744073709551616

/-- inc/kos_memory.h:31-36 `KOS_VECTOR_S`; `buf` is `none` if the buffer is `local_buffer_`, which is `small` -/
structure Vec where
  buf : Option Nat
  size : Nat
  capacity : Nat
  small : List Cell
  deriving DecidableEq, Repr

structure Heap where
  blocks : Nat → Option (List Cell)
  next : Nat

def Heap.set (h : Heap) (i : Nat) (b : Option (List Cell)) : Heap := { h with blocks := fun j => if j = i then b else h.blocks j }

/-- The memory where the buffer is. -/
def buffer (h : Heap) (v : Vec) : Except Err (List Cell) :=
  match v.buf with
  | none => .ok v.small
  | some i =>
    match h.blocks i with
    | some l => .ok l
    | none => .error .ub

/-- `memcpy` from the beginning of the buffer -/
def read (h : Heap) (v : Vec) (n : Nat) : Except Err (List Cell) :=
  match buffer h v with
  | .ok l => if n ≤ l.length then .ok (l.take n) else .error .ub
  | .error x => .error x

/-- `memcpy` to a place in the buffer -/
def write (h : Heap) (v : Vec) (pos : Nat) (cs : List Cell) : Except Err (Heap × Vec) :=
  match buffer h v with
  | .error x => .error x
  | .ok l =>
    if pos + cs.length ≤ l.length then
      let l' := l.take pos ++ cs ++ l.drop (pos + cs.length)
      match v.buf with
      | none => .ok (h, { v with small := l' })
      | some i => .ok (h.set i (some l'), v)
    else .error .ub

/-- A block with these cells at its beginning. -/
def alloc (h : Heap) (cap : Nat) (cs : List Cell) : Heap :=
  { blocks := fun j => if j = h.next then some (cs ++ List.replicate (cap - cs.length) none) else h.blocks j, next := h.next + 1 }

/-- core/kos_memory.c:131-136 -/
def init (v : Vec) : Vec := { v with buf := none, size := 0, capacity := 16 }

/-- core/kos_memory.c:138-145 -/
def destroy (h : Heap) (v : Vec) : Except Err (Heap × Vec) :=
  if v.capacity > 16 then
    match v.buf with
    | none => .error .ub
    | some i =>
      match h.blocks i with
      | none => .error .ub
      | some _ => .ok (h.set i none, init v)
  else .ok (h, v)

/-- core/kos_memory.c:147-170; `m`: there is memory.  The result is `true` for success. -/
def reserve (h : Heap) (v : Vec) (cap : Nat) (m : Bool) : Except Err (Bool × Heap × Vec) :=
  if cap > v.capacity then
    if v.capacity ≤ 16 then
      if m ∧ cap < limit then
        if v.size ≠ 0 then
          match read h v v.size with
          | .error x => .error x
          | .ok cs => if cs.length ≤ cap then .ok (true, alloc h cap cs, { v with buf := some h.next, capacity := cap }) else .error .ub
        else .ok (true, alloc h cap [], { v with buf := some h.next, capacity := cap })
      else .ok (false, h, v)
    else
      match v.buf with
      | none => .error .ub
      | some i =>
        match h.blocks i with
        | none => .error .ub
        | some l =>
          if m ∧ cap < limit then .ok (true, alloc (h.set i none) cap (l.take cap), { v with buf := some h.next, capacity := cap })
          else .ok (false, h, v)
  else .ok (true, h, v)

/-- core/kos_memory.c:172-195 -/
def resize (h : Heap) (v : Vec) (size : Nat) (m : Bool) : Except Err (Bool × Heap × Vec) :=
  if size > v.capacity then
    if v.capacity = 0 then .error .assert
    else
      let delta := max (min v.capacity 262144) 64
      let cap := if add64 v.capacity delta > size then add64 v.capacity delta else size
      match reserve h v cap m with
      | .error x => .error x
      | .ok (true, h, v) => .ok (true, h, { v with size := size })
      | .ok (false, h, v) => .ok (false, h, v)
  else .ok (true, h, { v with size := size })

structure World where
  heap : Heap
  vecs : Nat → Vec

def World.put (w : World) (k : Nat) (h : Heap) (v : Vec) : World := ⟨h, fun j => if j = k then v else w.vecs j⟩

/-- core/kos_memory.c:197-212: `src` is read after `dest` has been changed -/
def concat (w : World) (d s : Nat) (m : Bool) : Except Err (Bool × World) :=
  if (w.vecs s).size ≠ 0 then
    let pos := (w.vecs d).size
    match resize w.heap (w.vecs d) (add64 (w.vecs d).size (w.vecs s).size) m with
    | .error x => .error x
    | .ok (false, h, v) => .ok (false, w.put d h v)
    | .ok (true, h, v) =>
      let w := w.put d h v
      match read w.heap (w.vecs s) (w.vecs s).size with
      | .error x => .error x
      | .ok cs =>
        match write w.heap (w.vecs d) pos cs with
        | .error x => .error x
        | .ok (h, v) => .ok (true, w.put d h v)
  else .ok (true, w)

/-- Calls, and a store to a byte of a vector by its user. -/
inductive Op where
  | destroy (k : Nat)
  | reserve (k cap : Nat) (m : Bool)
  | resize (k size : Nat) (m : Bool)
  | concat (d s : Nat) (m : Bool)
  | set (k i b : Nat)
  deriving DecidableEq, Repr

def step (w : World) : Op → Except Err (Bool × World)
  | .destroy k =>
    match destroy w.heap (w.vecs k) with
    | .error x => .error x
    | .ok (h, v) => .ok (true, w.put k h v)
  | .reserve k cap m =>
    match reserve w.heap (w.vecs k) cap m with
    | .error x => .error x
    | .ok (b, h, v) => .ok (b, w.put k h v)
  | .resize k size m =>
    match resize w.heap (w.vecs k) size m with
    | .error x => .error x
    | .ok (b, h, v) => .ok (b, w.put k h v)
  | .concat d s m => concat w d s m
  | .set k i b =>
    match write w.heap (w.vecs k) i [some b] with
    | .error x => .error x
    | .ok (h, v) => .ok (true, w.put k h v)

/-- All vectors after `KOS_vector_init`. -/
def start : World := ⟨⟨fun _ => none, 0⟩, fun _ => init ⟨none, 0, 0, List.replicate 16 none⟩⟩

def steps (w : World) : List Op → Except Err World
  | [] => .ok w
  | o :: os =>
    match step w o with
    | .error x => .error x
    | .ok (_, w) => steps w os

end Verif.Vect
