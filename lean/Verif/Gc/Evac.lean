import Verif.Gc.Mark

/-!
# Moving objects and updating references (core/kos_heap.c)

Page lists (84–133), allocation of pages and objects (639–1045), finalizers (323–403),
evacuation (2074–2697), updating of references (2150–2492) and `KOS_collect_garbage`
(2870–3062).  `none` stands for a failed assertion or for reading memory that holds no object.

Simplifications:
* The statistics and `used_heap_size` are left out, except for the test whether the last pass
  gave back pages.
* Builds with CONFIG_MAD_GC are left out.
* The memory of pages given back is unreadable at once; the code overwrites it only in debug
  builds (`debug_fill_slots`).  The mark bits of such pages stay as they are in the model.
* Several threads may update pages (2377–2393); each page is updated by one of them, and the
  update of a page writes only to its own objects and reads only headers, which no update
  changes.  The model updates the pages one after another.
* Finalizers are entries in `log`; they do not touch the heap.
-/

namespace Verif.Gc

/-! ## Pages -/

/-- `push_page`, 110–127: pages with room go to the front, full pages to the back. -/
def pushPage (cfg : Cfg) (h : Heap) (l : List Nat) (p : Nat) : List Nat :=
  if h.num p = cfg.spp then l ++ [p] else p :: l

/-- `push_page_with_objects`, 828–832 -/
def pushUsed (cfg : Cfg) (h : Heap) (p : Nat) : Heap :=
  { h with used := pushPage cfg h h.used p }

/-- `release_current_page_locked`, 834–853 -/
def release (cfg : Cfg) (h : Heap) : Heap :=
  match h.cur with
  | some p => { pushUsed cfg h p with cur := none }
  | none => h

/-- The memory of pages `l` holds nothing any more. -/
def wipe (h : Heap) (l : List Nat) : Heap :=
  { h with
    cell := fun p s => if p ∈ l then none else h.cell p s
    num := fun p => if p ∈ l then 0 else h.num p }

/-- `reclaim_free_pages`, 1943–1983 -/
def reclaim (h : Heap) (l : List Nat) : Heap :=
  { wipe h l with free := l ++ h.free }

/-- `unlock_pages`, 2039–2071: the heap, what is left of the list, and whether any page was
made available. -/
def unlock (h : Heap) (fp : List Nat) : Heap × List Nat × Bool :=
  (reclaim h (fp.filter fun p => h.num p = 0), fp.filter (fun p => h.num p ≠ 0),
    fp.any fun p => h.num p = 0)

/-- `alloc_page_pool`, 639–705, brings pages `next`, …; then `alloc_page`, 708–740. -/
def allocPool (h : Heap) : Heap :=
  match h.pools with
  | [] => h
  | k :: ks =>
    { h with
      pools := ks
      num := fun p => if h.next ≤ p ∧ p < h.next + k then 0 else h.num p
      free := List.range' h.next k
      next := h.next + k }

/-- The pool, if one is needed. -/
def refill (h : Heap) : Heap :=
  match h.free with
  | [] => allocPool h
  | _ => h

/-! ## Objects -/

/-- The search through the first used pages, 938–962: the pages before the one with enough
room, that page, and those after it. -/
def seekPage (cfg : Cfg) (h : Heap) (n : Nat) :
    Nat → List Nat → List Nat → Option (List Nat × Nat × List Nat)
  | 0, _, _ => none
  | _ + 1, _, [] => none
  | d + 1, pre, q :: rest =>
    if h.num q = cfg.spp then none
    else if cfg.spp - h.num q < n then seekPage cfg h n d (pre ++ [q]) rest
    else some (pre, q, rest)

/-- What becomes of the list and of the current page when `q` was found, 962–1003; `h` has
the new number of slots of `q`. -/
def afterSeek (cfg : Cfg) (h : Heap) (pre : List Nat) (q : Nat) (post : List Nat) : Heap :=
  if h.num q = cfg.spp then
    if post = [] then h
    else { h with used := pushPage cfg h (pre ++ post) q }
  else
    match h.cur with
    | none => { h with used := pre ++ post, cur := some q }
    | some c =>
      if h.num q < h.num c then
        { h with used := pushPage cfg h (pre ++ post) c, cur := some q }
      else h

/-- A new page, 1015–1045.  A failed `assert` is `none`. -/
def allocNew (cfg : Cfg) (h : Heap) (n : Nat) : Option (Heap × Option (Nat × Nat)) :=
  let h1 := refill (release cfg h)
  match h1.free with
  | [] => some (h1, none)
  | p :: ps =>
    if h1.num p = 0 ∧ n ≤ cfg.spp then
      some ({ h1 with free := ps, cur := some p, num := setNum h1.num p n }, some (p, 0))
    else none

/-- The slow path of `alloc_object`, 929–1045. -/
def allocSlow (cfg : Cfg) (h : Heap) (n : Nat) : Option (Heap × Option (Nat × Nat)) :=
  match seekPage cfg h n cfg.seek [] h.used with
  | some (pre, q, post) =>
    some (afterSeek cfg { h with num := setNum h.num q (h.num q + n) } pre q post,
      some (q, h.num q))
  | none => allocNew cfg h n

/-- `alloc_object`, 883–1045, of the thread which collects: `n` slots.  The address, or
nothing when memory ran out. -/
def alloc (cfg : Cfg) (h : Heap) (n : Nat) : Option (Heap × Option (Nat × Nat)) :=
  match h.cur with
  | some p =>
    if h.num p + n ≤ cfg.spp then
      some ({ h with num := setNum h.num p (h.num p + n) }, some (p, h.num p))
    else allocSlow cfg h n
  | none => allocSlow cfg h n

/-- An object is written to `n` slots from `(q, t)`. -/
def putObj (h : Heap) (q t n : Nat) (b : Body) : Heap :=
  { h with
    cell := fun p s =>
      if p = q ∧ s = t then some ⟨.own n, b⟩
      else if p = q ∧ t < s ∧ s < t + n then none
      else h.cell p s }

/-- `evacuate_object`, 2074–2104; the flag tells whether there was memory. -/
def evacOne (cfg : Cfg) (h : Heap) (p s : Nat) : Option (Heap × Bool) :=
  match h.cell p s with
  | some ⟨.own n, b⟩ =>
    match alloc cfg h n with
    | some (h1, some (q, t)) =>
      let h2 := putObj h1 q t n b
      some ({ h2 with cell := setCell h2.cell p s (some ⟨.moved q t, b⟩) }, true)
    | some (h1, none) => some (h1, false)
    | none => none
  | _ => none

/-- Finalizing object `r` that is no tracker, 329–403: the body afterwards and the call. -/
def finalBody (r : Ref) : Body → Body × List (Ref × Nat)
  | .object a b (some f) => (.object a b none, [(r, f)])
  | .bufExt _ (some f) => (.bufExt 0 none, [(r, f)])
  | .module a b c d e g i (some f) m => (.module a b c d e g i (some f) m, [(r, f)])
  | b => (b, [])

/-- Case OBJ_HUGE_TRACKER of `finalize_object`, 368–391. -/
def finalHuge (h : Heap) (p s n k : Nat) : Option Heap :=
  match h.huge k with
  | some x =>
    if x.body.isTracker then none
    else some { h with
      huge := fun j => if j = k then none else h.huge j
      log := h.log ++ (finalBody (.huge k) x.body).2
      cell := setCell h.cell p s (some ⟨.own n, .tracker .bad⟩) }
  | none => none

/-- `finalize_object`, 323–403 -/
def finalize (h : Heap) (p s : Nat) : Option Heap :=
  match h.cell p s with
  | some ⟨.own _, .tracker .bad⟩ => some h
  | some ⟨.own n, .tracker (.huge k)⟩ => finalHuge h p s n k
  | some ⟨.own _, .tracker _⟩ => none
  | some ⟨.own n, b⟩ =>
    some { h with
      log := h.log ++ (finalBody (.heap p s) b).2
      cell := setCell h.cell p s (some ⟨.own n, (finalBody (.heap p s) b).1⟩) }
  | _ => none

/-! ## Evacuation -/

/-- `get_num_slots_used`, 2494–2526: from slot `s` on. -/
def slotsUsed (h : Heap) (p e : Nat) : Nat → Nat → Option Nat
  | 0, s => if s < e then none else some 0
  | f + 1, s =>
    if s < e then
      if (h.mark p s).any then
        match sizeAt h p s with
        | some n =>
          if (h.mark p s).black ∧ s + n ≤ e then (slotsUsed h p e f (s + n)).map (n + ·)
          else none
        | none => none
      else slotsUsed h p e f (s + 1)
    else some 0

/-- The size which `mark_unused_objects_opaque` reads, 2122–2134. -/
def sizeVia (h : Heap) (p s : Nat) : Option Nat :=
  match h.cell p s with
  | some ⟨.own n, _⟩ => some n
  | some ⟨.moved q t, _⟩ => sizeAt h q t
  | none => none

/-- The object at `(p, s)`, of `n` slots, becomes opaque. -/
def setOpaque (h : Heap) (p s n : Nat) : Heap :=
  { h with cell := setCell h.cell p s (some ⟨.own n, .opaque 0⟩) }

/-- `mark_unused_objects_opaque`, 2106–2148 -/
def opaqueObjs (h : Heap) (p e : Nat) : Nat → Nat → Option Heap
  | 0, s => if s < e then none else some h
  | f + 1, s =>
    if s < e then
      match sizeVia h p s with
      | some n =>
        if n = 0 ∨ e < s + n then none
        else if (h.mark p s).any then
          if (h.mark p s).black then opaqueObjs h p e f (s + n) else none
        else
          match finalize h p s with
          | some h1 => opaqueObjs (setOpaque h1 p s n) p e f (s + n)
          | none => none
      | none => none
    else some h

/-- Evacuation of one object with the first attempt to recover, 2607–2633. -/
def evacTry (cfg : Cfg) (h : Heap) (p s : Nat) (fp : List Nat) :
    Option (Heap × List Nat × Bool) :=
  match evacOne cfg h p s with
  | none => none
  | some (h1, true) => some (h1, fp, true)
  | some (h1, false) =>
    let u := unlock (release cfg h1) fp
    if u.2.2 then
      match evacOne cfg u.1 p s with
      | none => none
      | some (h2, ok) => some (h2, u.2.1, ok)
    else some (u.1, u.2.1, false)

/-- How the loop over the objects of a page ends. -/
inductive Loop where
  | done (h : Heap) (n : Nat) (fp : List Nat)
  | stop (h : Heap) (s : Nat) (fp : List Nat)

/-- The loop over the objects of a page, 2593–2673.  `n` is `num_evac`. -/
def evacObjs (cfg : Cfg) (p e : Nat) : Nat → Heap → Nat → Nat → List Nat → Option Loop
  | 0, h, s, n, fp => if s < e then none else some (.done h n fp)
  | f + 1, h, s, n, fp =>
    if s < e then
      match sizeAt h p s with
      | none => none
      | some z =>
        if z = 0 ∨ e < s + z then none
        else if (h.mark p s).any then
          if (h.mark p s).black then
            match evacTry cfg h p s fp with
            | none => none
            | some (h1, fp1, true) => evacObjs cfg p e f h1 (s + z) (n + 1) fp1
            | some (h1, fp1, false) => some (.stop h1 s fp1)
          else none
        else
          match finalize h p s with
          | some h1 => evacObjs cfg p e f h1 (s + z) n fp
          | none => none
    else some (.done h n fp)

/-- `set_marking_in_pages(heap->used_pages.head, BLACK, PAGE_ALREADY_EVACED)`, 1272–1286 -/
def blacken (h : Heap) : Heap :=
  { h with
    mark := fun p s => if p ∈ h.used then ⟨false, true⟩ else h.mark p s
    flag := fun p => if p ∈ h.used then true else h.flag p }

/-- The remaining pages go back to the heap, 2651–2656. -/
def putBack (cfg : Cfg) : List Nat → Heap → Option Heap
  | [], h => some h
  | p :: ps, h =>
    match opaqueObjs h p (h.num p) (h.num p) 0 with
    | some h1 => putBack cfg ps (pushUsed cfg h1 p)
    | none => none

/-- Result of `evacuate`: the heap, the list of pages to give back, whether memory ran out,
and the page of which only a part was evacuated, with the size of the part. -/
structure Out where
  h : Heap
  fp : List Nat
  err : Bool
  inc : Option (Nat × Nat)

/-- Where memory runs out for good, 2635–2661: `s` is the object for which there is none. -/
def giveUp (cfg : Cfg) (h : Heap) (p s : Nat) (todo fp : List Nat) : Option Out :=
  match opaqueObjs (blacken h) p (h.num p) (h.num p) 0 with
  | none => none
  | some h1 =>
    match putBack cfg todo (if s = 0 then pushUsed cfg h1 p else h1) with
    | none => none
    | some h2 => some ⟨release cfg h2, fp, true, if s = 0 then none else some (p, s)⟩

/-- `num_slots_used`, 2554–2558 -/
def pageUse (h : Heap) (p : Nat) : Option Nat :=
  if h.flag p then some (h.num p) else slotsUsed h p (h.num p) (h.num p) 0

/-- A page is kept, 2580–2597. -/
def keepPage (cfg : Cfg) (h : Heap) (p u : Nat) : Option Heap :=
  match (if u < h.num p then opaqueObjs h p (h.num p) (h.num p) 0 else some h) with
  | none => none
  | some h1 =>
    some { pushUsed cfg h1 p with
      flag := fun q => if q = p ∧ u ≠ 1 then true else h1.flag q }

/-- `evacuate`, 2531–2697: the loop over the pages. -/
def evacPages (cfg : Cfg) : List Nat → Heap → List Nat → Option Out
  | [], h, fp => some ⟨release cfg h, fp, false, none⟩
  | p :: todo, h, fp =>
    match pageUse h p with
    | none => none
    | some u =>
      if h.num p - u < cfg.unused then
        match keepPage cfg h p u with
        | none => none
        | some h1 => evacPages cfg todo h1 fp
      else
        match evacObjs cfg p (h.num p) (h.num p) h 0 0 fp with
        | none => none
        | some (.done h1 n fp1) =>
          evacPages cfg todo (if n = 0 then wipe h1 [p] else h1) (fp1 ++ [p])
        | some (.stop h1 s fp1) => giveUp cfg h1 p s todo fp1

/-! ## Update -/

/-- `update_child_ptr`, 2150–2173 -/
def updRef (h : Heap) : Ref → Option Ref
  | .heap p s =>
    match h.cell p s with
    | some ⟨.own _, _⟩ => some (.heap p s)
    | some ⟨.moved q t, _⟩ => some (.heap q t)
    | none => none
  | r => some r

def updPair (f : Ref → Option Ref) (kv : Ref × Ref) : Option (Ref × Ref) := do
  return (← f kv.1, ← f kv.2)

/-- `update_child_ptrs`, 2175–2313, for an object at `self` that is no tracker. -/
def Body.upd (cfg : Cfg) (f : Ref → Option Ref) (self : Ref) : Body → Option Body
  | .strRef r ptr d => do
    let r' ← f r
    return .strRef r' (ptr + (cfg.addr r' - cfg.addr r)) d
  | .object pr pt fin => do return .object (← f pr) (← f pt) fin
  | .array d n => do return .array (← f d) n
  | .buffer d n => do return .buffer (← f d) n
  | .objStore items nt d => do
    let nt' ← f nt
    return .objStore (← items.mapM (updPair f)) nt' d
  | .arrStore buf nx d => do
    let nx' ← f nx
    return .arrStore (← buf.mapM f) nx' d
  | .bufStore _ d => some (.bufStore (cfg.addr self + cfg.off) d)
  | .function bc m nm cl df am fr o => do
    return .function (← f bc) (← f m) (← f nm) (← f cl) (← f df) (← f am) (← f fr) o
  | .cls bc m nm cl df am pt pr o => do
    return .cls (← f bc) (← f m) (← f nm) (← f cl) (← f df) (← f am) (← f pt) (← f pr) o
  | .dynProp g s => do return .dynProp (← f g) (← f s)
  | .iterator o po kt rk lk lv d => do
    return .iterator (← f o) (← f po) (← f kt) (← f rk) (← f lk) (← f lv) d
  | .module nm pa co gn gl mn pr fin d => do
    return .module (← f nm) (← f pa) (← f co) (← f gn) (← f gl) (← f mn) (← f pr) fin d
  | .stack buf d => do return .stack (← buf.mapM f) d
  | b => some b

/-- The object behind a tracker is updated and told the place of the tracker, 2207–2222. -/
def updHuge (cfg : Cfg) (h : Heap) (p s k : Nat) : Option Heap :=
  match h.huge k with
  | some x =>
    if x.body.isTracker then none
    else
      match x.body.upd cfg (updRef h) (.huge k) with
      | some b => some { h with
          huge := fun j => if j = k then some ⟨.heap p s, b⟩ else h.huge j }
      | none => none
  | none => none

/-- `update_child_ptrs`, 2175–2313, of the object at `(p, s)`. -/
def updObj (cfg : Cfg) (h : Heap) (p s : Nat) : Option Heap :=
  match h.cell p s with
  | some ⟨.own _, .tracker .bad⟩ => some h
  | some ⟨.own _, .tracker (.huge k)⟩ => updHuge cfg h p s k
  | some ⟨.own _, .tracker _⟩ => none
  | some ⟨.own n, b⟩ =>
    match b.upd cfg (updRef h) (.heap p s) with
    | some b' => some { h with cell := setCell h.cell p s (some ⟨.own n, b'⟩) }
    | none => none
  | _ => none

/-- `update_page_after_evacuation`, 2315–2331, from slot `s` on. -/
def updPage (cfg : Cfg) (p e : Nat) : Nat → Heap → Nat → Option Heap
  | 0, h, s => if s < e then none else some h
  | f + 1, h, s =>
    if s < e then
      match sizeAt h p s with
      | none => none
      | some n =>
        match updObj cfg h p s with
        | some h1 => updPage cfg p e f h1 (s + n)
        | none => none
    else some h

/-- `update_pages_after_evacuation`, 2377–2393 -/
def updPages (cfg : Cfg) : List Nat → Heap → Option Heap
  | [], h => some h
  | p :: ps, h =>
    match updPage cfg p (h.num p) (h.num p) h 0 with
    | some h1 => updPages cfg ps h1
    | none => none

/-- 2434–2448 -/
def updProtos (f : Ref → Option Ref) (t : Protos) : Option Protos := do
  return { t with
    object := ← f t.object, number := ← f t.number, integer := ← f t.integer
    float := ← f t.float, string := ← f t.string, boolean := ← f t.boolean
    array := ← f t.array, buffer := ← f t.buffer, function := ← f t.function
    cls := ← f t.cls, generator := ← f t.generator, exception := ← f t.exception
    generatorEnd := ← f t.generatorEnd, thread := ← f t.thread, module := ← f t.module }

/-- 2450–2454 -/
def updMods (f : Ref → Option Ref) (m : Mods) : Option Mods := do
  return { m with
    initModule := ← f m.initModule, searchPaths := ← f m.searchPaths
    moduleNames := ← f m.moduleNames, modules := ← f m.modules
    moduleInits := ← f m.moduleInits }

/-- `update_threads_after_evacuation`, 2395–2420 -/
def updThread (f : Ref → Option Ref) : Option Thread → Option (Option Thread)
  | none => some none
  | some t => do
    return some { t with
      func := ← f t.func, this := ← f t.this, args := ← f t.args
      retval := ← f t.retval, exception := ← f t.exception }

/-- 2464–2488 -/
def updCtx (f : Ref → Option Ref) (c : Ctx) : Option Ctx := do
  return { c with
    exception := ← f c.exception, stack := ← f c.stack
    locals := ← c.locals.mapM f, ulocals := ← c.ulocals.mapM f }

/-- `update_after_evacuation`, 2422–2492, the roots. -/
def updInst (f : Ref → Option Ref) (i : Inst) : Option Inst := do
  return { i with
    protos := ← updProtos f i.protos, mods := ← updMods f i.mods, args := ← f i.args
    threads := ← i.threads.mapM (updThread f), ctxs := ← i.ctxs.mapM (updCtx f) }

/-- The part of a page which was evacuated becomes one opaque object without marks,
2346–2356. -/
def mergeFront (h : Heap) (p off : Nat) : Heap :=
  { h with
    cell := fun q t =>
      if q = p ∧ t = 0 then some ⟨.own off, .opaque 0⟩
      else if q = p ∧ t < off then none
      else h.cell q t
    mark := fun q t => if q = p ∧ t < off then ⟨false, false⟩ else h.mark q t }

/-- `update_incomplete_page`, 2338–2359 -/
def updInc (cfg : Cfg) (h : Heap) : Option (Nat × Nat) → Option Heap
  | none => some h
  | some (p, off) =>
    match updPage cfg p (h.num p) (h.num p) h off with
    | some h1 => some (pushUsed cfg (mergeFront h1 p off) p)
    | none => none

/-- One round of the loop in `KOS_collect_garbage`, 2942–2983: the heap, the roots, whether
memory ran out, and whether pages were given back. -/
def pass (cfg : Cfg) (h : Heap) (i : Inst) : Option (Heap × Inst × Bool × Bool) :=
  match evacPages cfg h.used { h with used := [] } [] with
  | none => none
  | some o =>
    match updPages cfg o.h.used o.h with
    | none => none
    | some h1 =>
      match updInst (updRef h1) i with
      | none => none
      | some i1 =>
        match updInc cfg h1 o.inc with
        | none => none
        | some h2 => some (reclaim h2 o.fp, i1, o.err, !o.fp.isEmpty)

/-- The loop in `KOS_collect_garbage`, 2941–2984; the flag tells whether it succeeded. -/
def passes (cfg : Cfg) : Nat → Heap → Inst → Option (Heap × Inst × Bool)
  | 0, _, _ => none
  | f + 1, h, i =>
    match pass cfg h i with
    | none => none
    | some (h1, i1, err, freed) =>
      if err then
        if freed then passes cfg f h1 i1 else some (h1, i1, false)
      else some (h1, i1, true)

/-- Whether all threads are done with marking. -/
def Marking.isDone (m : Marking) : Bool := m.bag.isEmpty && m.threads.all List.isEmpty

/-- `KOS_collect_garbage`, 2870–3062, with `n` helper threads under schedule `sch`.  When the
schedule ends before marking is done, memory for the scheduled objects ran out there, and
nothing is moved (2932–2939). -/
def collect (cfg : Cfg) (h : Heap) (i : Inst) (n : Nat) (sch : List (Nat × Nat)) :
    Option (Heap × Inst × Bool) :=
  match runMark sch (startMark (release cfg h) i n) with
  | none => none
  | some m =>
    if m.isDone then passes cfg (m.h.used.length + 1) m.h i
    else some (m.h, i, false)

end Verif.Gc
