/-!
# The heap and its objects (core/kos_heap.c, inc/kos_entity.h)

References, objects, pages and the roots, as the garbage collector sees them.

Cited files: `inc/kos_entity.h` (object ids 53–72, object layouts 165–505),
`core/kos_object_internal.h` (154–192 storages, 329–375 page layout),
`inc/kos_instance.h` (183–258, the roots), `core/kos_threads_internal.h` (21–28).

Simplifications:
* An address is a pair of a page and a slot in it; sizes are numbers of slots.
* A slot holds an object (header and body), or nothing that may be read as an object
  (`none`: the inside of an object, or memory which was never written or was given back).
* Small integers, static objects and native pointers are all `Ref.val`: the collector tests
  that they are not tracked and leaves them alone (kos_entity.h:53–72).
* The parts of a body which the collector only copies are one number, `meta` or `data`.
* `Huge` objects live outside pages; `back` is the word in front of them, which holds the
  object id of their tracker (kos_heap.c:1094–1100).
-/

namespace Verif.Gc

/-- `KOS_OBJ_ID`, inc/kos_entity.h:53–72. -/
inductive Ref where
  | val (v : Int)
  | bad
  | heap (p s : Nat)
  | huge (k : Nat)
deriving DecidableEq, Repr

/-- What the collector sees of an object of each type; the fields are those of
inc/kos_entity.h and core/kos_object_internal.h.  `fin` is the native call which the object
asks for when it dies (its finalizer with its private data). -/
inductive Body where
  | integer (v : Int)
  | float (v : Nat)
  | opaque (data : Nat)
  /-- strings of kinds LOCAL and PTR -/
  | string (data : Nat)
  /-- strings of kind REF: `data_ptr` points into the string `obj_id` -/
  | strRef (ref : Ref) (ptr : Int) (data : Nat)
  | object (props prototype : Ref) (fin : Option Nat)
  | array (data : Ref) (size : Nat)
  | buffer (data : Ref) (size : Nat)
  | function (bytecode module name closures defaults argMap frame : Ref) (opts : Nat)
  | cls (bytecode module name closures defaults argMap prototype props : Ref) (opts : Nat)
  | objStore (items : List (Ref × Ref)) (newTable : Ref) (data : Nat)
  | arrStore (buf : List Ref) (next : Ref) (data : Nat)
  /-- a buffer storage which holds its bytes; `ptr` points to them -/
  | bufStore (ptr : Int) (data : Nat)
  /-- a buffer storage of kind `KOS_EXTERNAL_STORAGE` -/
  | bufExt (ptr : Int) (fin : Option Nat)
  | dynProp (getter setter : Ref)
  | iterator (obj propObj keyTable returnedKeys lastKey lastValue : Ref) (data : Nat)
  | module (name path constants globalNames globals moduleNames priv : Ref) (fin : Option Nat)
      (data : Nat)
  | stack (buf : List Ref) (data : Nat)
  /-- `data` is null exactly when `object` is `KOS_BADPTR` -/
  | tracker (object : Ref)
deriving DecidableEq, Repr

/-- `size_and_type`: the object's own size, or during a collection the id of its copy. -/
inductive Hdr where
  | own (n : Nat)
  | moved (p s : Nat)
deriving DecidableEq, Repr

structure Obj where
  hdr : Hdr
  body : Body
deriving DecidableEq, Repr

/-- The two mark bits of a slot, kos_heap.c:1264–1269. -/
structure Mark where
  gray : Bool
  black : Bool
deriving DecidableEq, Repr

/-- `color != WHITE` -/
def Mark.any (m : Mark) : Bool := m.gray || m.black

structure Huge where
  back : Ref
  body : Body
deriving DecidableEq, Repr

/-- The heap.  `cur` is `ctx->cur_page` of the thread which collects; the other threads have
none while they wait (kos_heap.c:1228–1262).  `pools` are the answers of the system to the
next calls of `alloc_page_pool`: how many pages each brings, none when it fails.  `log` are
the native calls made by `finalize_object`. -/
structure Heap where
  cell : Nat → Nat → Option Obj
  num : Nat → Nat
  flag : Nat → Bool
  mark : Nat → Nat → Mark
  used : List Nat
  free : List Nat
  cur : Option Nat
  next : Nat
  pools : List Nat
  huge : Nat → Option Huge
  log : List (Ref × Nat)

/-- The constants of the build and the layout of memory.
`spp` is KOS_SLOTS_PER_PAGE (kos_object_internal.h:365), `unused` is UNUSED_SLOTS
(kos_heap.c:2571), `seek` is KOS_MAX_PAGE_SEEK; `addr` is the address of an object and `off`
the offset of the bytes in a buffer storage. -/
structure Cfg where
  spp : Nat
  unused : Nat
  seek : Nat
  addr : Ref → Int
  off : Int

/-! ## Roots -/

/-- inc/kos_instance.h:198–216 -/
structure Protos where
  object : Ref
  number : Ref
  integer : Ref
  float : Ref
  string : Ref
  boolean : Ref
  array : Ref
  buffer : Ref
  function : Ref
  cls : Ref
  generator : Ref
  exception : Ref
  generatorEnd : Ref
  panic : Ref
  ctrlC : Ref
  thread : Ref
  module : Ref
deriving DecidableEq, Repr

/-- inc/kos_instance.h:218–223 -/
structure Mods where
  searchPaths : Ref
  moduleNames : Ref
  modules : Ref
  initModule : Ref
  moduleInits : Ref
deriving DecidableEq, Repr

/-- core/kos_threads_internal.h:21–28 -/
structure Thread where
  func : Ref
  this : Ref
  args : Ref
  retval : Ref
  exception : Ref
deriving DecidableEq, Repr

/-- inc/kos_instance.h:180–196.  `thread_obj` is left out: it is `KOS_BADPTR` always. -/
structure Ctx where
  exception : Ref
  stack : Ref
  locals : List Ref
  ulocals : List Ref
deriving DecidableEq, Repr

/-- inc/kos_instance.h:250–257; a `none` thread is an unused slot of the table. -/
structure Inst where
  args : Ref
  protos : Protos
  mods : Mods
  threads : List (Option Thread)
  ctxs : List Ctx
deriving DecidableEq, Repr

/-! ## Small accessors -/

def setCell (c : Nat → Nat → Option Obj) (p s : Nat) (o : Option Obj) :
    Nat → Nat → Option Obj :=
  fun q t => if q = p ∧ t = s then o else c q t

def setNum (f : Nat → Nat) (p n : Nat) : Nat → Nat := fun q => if q = p then n else f q

/-- Type of an object is OBJ_HUGE_TRACKER. -/
def Body.isTracker : Body → Bool
  | .tracker _ => true
  | _ => false

/-- The header of an object that is not forwarded gives its size. -/
def sizeAt (h : Heap) (p s : Nat) : Option Nat :=
  match h.cell p s with
  | some ⟨.own n, _⟩ => some n
  | _ => none

/-- The body behind a reference, as `OBJPTR` reads it; `none` when there is no such object. -/
def bodyAt (h : Heap) : Ref → Option Body
  | .heap p s =>
    match h.cell p s with
    | some ⟨.own _, b⟩ => some b
    | _ => none
  | .huge k => (h.huge k).map Huge.body
  | _ => none

end Verif.Gc
