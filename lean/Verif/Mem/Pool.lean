/-!
Model of the memory pool, core/kos_memory.c:15-130, on 64-bit machines.

Pointers are numbers, 0 is NULL. `KOS_malloc` is an oracle: its result is part of each event. Links between the pool's buffers are kept in memory,
in the first 8 bytes of each buffer; `mem` gives the pointer stored at an address.
-/
namespace Verif.Mem

/-- inc/kos_memory.h:18-22 `KOS_MEMPOOL_S` -/
structure Pool where
  free : Nat
  next : Nat
  buffers : Nat
  deriving DecidableEq, Repr

/-- `live`: addresses and sizes of buffers from `KOS_malloc` which have not been freed. -/
structure World where
  pool : Pool
  mem : Nat → Nat
  live : List (Nat × Nat)

def store (mem : Nat → Nat) (p v : Nat) : Nat → Nat := fun x => if x = p then v else mem x

/-- core/kos_memory.c:20-25 `KOS_mempool_init` -/
def poolInit (mem : Nat → Nat) : World := ⟨⟨0, 0, 0⟩, mem, []⟩

/-- core/kos_memory.c:27-49 `KOS_mempool_init_small`; `m` is the result of `KOS_malloc`. `~1023U` is a 32-bit number. -/
def poolInitSmall (mem : Nat → Nat) (size : Nat) (m : Option Nat) : World :=
  let size := (size + 1023) % 2 ^ 64 &&& (2 ^ 32 - 1 - 1023)
  match m with
  | none => poolInit mem
  | some buf => ⟨⟨(size + 2 ^ 64 - 16 + 8) % 2 ^ 64, buf + 8, buf⟩, store mem buf 0, [(buf, size)]⟩

/-- core/kos_memory.c:64-94 `alloc_large`: returns the object. -/
def allocLarge (w : World) (size : Nat) (m : Option Nat) : World × Nat :=
  let allocSize := (size + 16) % 2 ^ 64
  match m with
  | none => (w, 0)
  | some buf =>
    let live := (buf, allocSize) :: w.live
    if w.pool.buffers ≠ 0 then
      let top := w.pool.buffers
      let next := w.mem top
      (⟨w.pool, store (store w.mem buf next) top buf, live⟩, buf + 16)
    else (⟨{ w.pool with buffers := buf, free := 0 }, store w.mem buf 0, live⟩, buf + 16)

/-- core/kos_memory.c:119-127: the object is taken from the free space if there is a buffer. -/
def take (w : World) (buf size : Nat) : World × Nat :=
  if buf ≠ 0 then (⟨{ w.pool with next := w.pool.next + size, free := w.pool.free - size }, w.mem, w.live⟩, w.pool.next)
  else (w, 0)

/-- core/kos_memory.c:96-130 `KOS_mempool_alloc`; `fail` is the result of `kos_seq_fail`. `~7U` is a 32-bit number. KOS_BUF_ALLOC_SIZE is 65536. -/
def poolAlloc (w : World) (size : Nat) (m : Option Nat) (fail : Bool) : World × Nat :=
  let size := (size + 7) % 2 ^ 64 &&& (2 ^ 32 - 1 - 7)
  if size > w.pool.free then
    if size > 65536 / 16 then allocLarge w size m
    else
      match m with
      | none => take w 0 size
      | some buf => take ⟨⟨65536 - 16 + 8, buf + 8, buf⟩, store w.mem buf w.pool.buffers, (buf, 65536) :: w.live⟩ buf size
  else if ¬ fail then take w w.pool.buffers size
  else take w 0 size

/-- core/kos_memory.c:51-62 `KOS_mempool_destroy`: addresses given to `KOS_free`, in this order. -/
def poolDestroy (mem : Nat → Nat) : Nat → Nat → Option (List Nat)
  | 0, _ => none
  | fuel + 1, buf =>
    if buf ≠ 0 then
      match poolDestroy mem fuel (mem buf) with
      | none => none
      | some l => some (buf :: l)
    else some []

/-- What the pool's user does: allocates, or changes memory. -/
inductive Ev
  | alloc (size : Nat) (m : Option Nat) (fail : Bool)
  | write (mem : Nat → Nat)

/-- Runs a history; `blocks` are addresses and requested sizes of objects returned so far. -/
def run (w : World) (blocks : List (Nat × Nat)) : List Ev → World × List (Nat × Nat)
  | [] => (w, blocks)
  | .alloc size m fail :: es =>
    let r := poolAlloc w size m fail
    run r.1 (if r.2 = 0 then blocks else (r.2, size) :: blocks) es
  | .write mem :: es => run { w with mem := mem } blocks es

end Verif.Mem
