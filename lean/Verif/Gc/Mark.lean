import Verif.Gc.Heap

/-!
# Marking (core/kos_heap.c:1264–1884)

`mark_roots` and `perform_gray_to_black_marking`, run by any number of threads.

Simplifications:
* The groups of scheduled objects (`KOS_MARK_GROUP`, 155–240, 1503–1566) are one bag from
  which any thread may take any object; a thread is done when it finds the bag empty and has
  nothing left of the object which it took.  A marking is finished when all threads are done.
* One step of a thread is one call of `set_mark_state` and what follows it in the same
  function; the call is a compare-and-swap of one word (1424–1439).
* `mark_object_black` calls `mark_children_gray` and that calls both; the calls which remain
  to be made are the thread's list, in the order in which they are made.
* Running out of memory for groups stops the collection (see `collect`).
-/

namespace Verif.Gc

/-- A call which a thread has yet to make: `mark_object_gray`, `mark_object_black`, or
`set_mark_state(…, BLACK)`. -/
inductive Act where
  | gray (r : Ref)
  | black (r : Ref)
  | only (r : Ref)
deriving DecidableEq, Repr

/-- The calls made by `mark_children_gray`, 1630–1759, for an object that is no tracker. -/
def Body.kids : Body → List Act
  | .integer _ => []
  | .float _ => []
  | .opaque _ => []
  | .bufStore _ _ => []
  | .bufExt _ _ => []
  | .string _ => []
  | .strRef r _ _ => [.gray r]
  | .object props proto _ => [.black props, .gray proto]
  | .array d _ => [.black d]
  | .buffer d _ => [.only d]
  | .function bc m nm cl df am fr _ =>
    [.gray bc, .gray m, .gray nm, .gray cl, .gray df, .gray am, .gray fr]
  | .cls bc m nm cl df am pt pr _ =>
    [.gray pt, .black pr, .gray bc, .gray m, .gray nm, .gray cl, .gray df, .gray am]
  | .objStore items nt _ =>
    (items.flatMap fun kv => [.gray kv.1, .gray kv.2]) ++ [.gray nt]
  | .arrStore buf nx _ => buf.map .gray ++ [.gray nx]
  | .dynProp g s => [.black g, .black s]
  | .iterator o po kt rk lk lv _ => [.gray o, .gray po, .gray kt, .gray rk, .gray lk, .gray lv]
  | .module nm pa co gn gl mn pr _ _ =>
    [.black nm, .black pa, .black co, .black gn, .black gl, .black mn, .black pr]
  | .stack buf _ => buf.map .gray
  | .tracker _ => []

/-- The calls for the object behind a tracker, 1740–1750. -/
def hugeKids (h : Heap) (k : Nat) : Option (List Act) :=
  match h.huge k with
  | some x => if x.body.isTracker then none else some x.body.kids
  | none => none

/-- `mark_children_gray`, 1630–1759.  `none`: an assertion fails or there is no object. -/
def kidsOf (h : Heap) : Body → Option (List Act)
  | .tracker .bad => some []
  | .tracker (.huge k) => hugeKids h k
  | .tracker _ => none
  | b => some b.kids

def setGray (m : Nat → Nat → Mark) (p s : Nat) : Nat → Nat → Mark :=
  fun q t => if q = p ∧ t = s then { m p s with gray := true } else m q t

def setBlack (m : Nat → Nat → Mark) (p s : Nat) : Nat → Nat → Mark :=
  fun q t => if q = p ∧ t = s then { m p s with black := true } else m q t

/-- Where `set_mark_state` finds the mark of an object, 1463–1487: nowhere for what is not
tracked, in the object's slot, or in the slot of the tracker which the back reference of a
huge object names. -/
inductive Where where
  | nowhere
  | slot (p s : Nat)
  | ub

def trackerAt (h : Heap) (p s : Nat) : Bool :=
  match h.cell p s with
  | some ⟨.own _, .tracker _⟩ => true
  | _ => false

def markLoc (h : Heap) : Ref → Where
  | .val _ => .nowhere
  | .bad => .nowhere
  | .heap p s => .slot p s
  | .huge k =>
    match h.huge k with
    | some ⟨.heap p s, _⟩ => if trackerAt h p s then .slot p s else .ub
    | _ => .ub

/-- State of the marking: the heap, the scheduled objects, and for each thread the calls
which remain to be made. -/
structure Marking where
  h : Heap
  bag : List Ref
  threads : List (List Act)

/-- `mark_object_gray`, 1568–1576 -/
def doGray (m : Marking) (r : Ref) : Option Marking :=
  match markLoc m.h r with
  | .nowhere => some m
  | .slot p s =>
    if (m.h.mark p s).gray then some m
    else some { m with h := { m.h with mark := setGray m.h.mark p s }, bag := r :: m.bag }
  | .ub => none

/-- `set_mark_state(…, BLACK)` -/
def doOnly (m : Marking) (r : Ref) : Option Marking :=
  match markLoc m.h r with
  | .nowhere => some m
  | .slot p s => some { m with h := { m.h with mark := setBlack m.h.mark p s } }
  | .ub => none

/-- The calls which `mark_object_black` makes after `set_mark_state`, 1761–1772. -/
def blackKids (h : Heap) (r : Ref) : Option (List Act) :=
  match r with
  | .val _ => some []
  | .bad => some []
  | _ =>
    match bodyAt h r with
    | some b => kidsOf h b
    | none => none

def setThread (m : Marking) (i : Nat) (l : List Act) : Marking :=
  { m with threads := m.threads.set i l }

/-- Thread `i` makes call `a`; `rest` remains. -/
def doAct (m : Marking) (i : Nat) (a : Act) (rest : List Act) : Option Marking :=
  match a with
  | .gray r => doGray (setThread m i rest) r
  | .only r => doOnly (setThread m i rest) r
  | .black r =>
    match blackKids m.h r with
    | some ks => doOnly (setThread m i (ks ++ rest)) r
    | none => none

/-- One step: thread `i` makes its next call, or takes the `j`-th scheduled object
(perform_gray_to_black_marking, 1587–1628). -/
def stepMark (m : Marking) (i j : Nat) : Option Marking :=
  match m.threads[i]? with
  | none => some m
  | some (a :: rest) => doAct m i a rest
  | some [] =>
    match m.bag[j]? with
    | none => some m
    | some r => some { setThread m i [.black r] with bag := m.bag.eraseIdx j }

/-- A run under a schedule. -/
def runMark : List (Nat × Nat) → Marking → Option Marking
  | [], m => some m
  | (i, j) :: sch, m =>
    match stepMark m i j with
    | some m1 => runMark sch m1
    | none => none

def Marking.finished (m : Marking) : Prop := m.bag = [] ∧ ∀ l ∈ m.threads, l = []

/-! ## Roots -/

/-- `mark_roots_in_threads`, 1808–1834, for one slot of the table. -/
def threadActs : Option Thread → List Act
  | none => []
  | some t => [.gray t.func, .gray t.this, .gray t.args, .gray t.retval, .gray t.exception]

/-- `mark_roots_in_context`, 1788–1806 -/
def ctxActs (c : Ctx) : List Act :=
  [.black c.exception, .black c.stack] ++ c.locals.map .black ++ c.ulocals.map .black

/-- `mark_roots`, 1836–1884 -/
def rootActs (i : Inst) : List Act :=
  [.black i.protos.object, .black i.protos.number, .black i.protos.integer,
   .black i.protos.float, .black i.protos.string, .black i.protos.boolean,
   .black i.protos.array, .black i.protos.buffer, .black i.protos.function,
   .black i.protos.cls, .black i.protos.generator, .black i.protos.exception,
   .black i.protos.generatorEnd, .black i.protos.thread, .black i.protos.module,
   .black i.mods.initModule, .black i.mods.searchPaths, .black i.mods.moduleNames,
   .black i.mods.modules, .black i.mods.moduleInits]
  ++ i.threads.flatMap threadActs ++ [.black i.args] ++ i.ctxs.flatMap ctxActs

/-- `clear_marking`, 1288–1296 -/
def clearMarking (h : Heap) : Heap :=
  { h with
    mark := fun p s => if p ∈ h.used then ⟨false, false⟩ else h.mark p s
    flag := fun p => if p ∈ h.used then false else h.flag p }

/-- The state in which marking starts, with `n` helper threads. -/
def startMark (h : Heap) (i : Inst) (n : Nat) : Marking :=
  ⟨clearMarking h, [], rootActs i :: List.replicate n []⟩

end Verif.Gc
