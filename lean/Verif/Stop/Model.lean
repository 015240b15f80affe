/-
  How threads stop for a garbage collection and go on after it
  (core/kos_heap.c 575-601, 744-795, 836-864, 917-927, 1228-1263, 2706-3062;
  core/kos_instance.c 106-210, 1215-1290).

  Any number of threads, interleaved in any order.  A step of a thread is what it
  does between two points at which other threads may notice: all data below is
  written by the holder of `heap->mutex` only, except for the flags of events
  (written under `ctx_mutex` by the collector) and for `heap->gc_state` and the
  own flags, which are also read without the mutex.

  Simplified: memory is sequentially consistent.  The list of contexts is walked
  in one step (`ctx_mutex` is held; what is read of a context is written by
  holders of `heap->mutex` only).  What the phases do to the heap is not in this
  model (C71 to C74), only who does it when.  `heap->walk_pages` is empty or not.
  The number of contexts is below 2^32.  The destruction of an instance and
  CONFIG_MAD_GC are left out.
-/

namespace Verif.Stop

/-- GC_STATE_E for contexts.  kos_heap.h 16-21 -/
inductive Gc
  | inactive | suspended | engaged
deriving DecidableEq, Repr

/-- GC_STATE_E for the heap.  kos_heap.h 16-27 -/
inductive Hs
  | inactive | init | mark | evac | update
deriving DecidableEq, Repr

/-- Who called help_gc. -/
inductive Who
  | plain | alloc | resume
deriving DecidableEq, Repr

/-- The walks of the collector: marking, updating. -/
inductive Ph
  | mark | upd
deriving DecidableEq, Repr

/-- Where a thread is. -/
inductive Pc
  /-- not registered -/
  | out
  /-- runs a program and uses the heap -/
  | run
  /-- between KOS_suspend_context and KOS_resume_context -/
  | susp
  /-- kos_help_gc has seen that a collection was started, 2792 -/
  | lHelp
  /-- behind kos_lock_mutex in alloc_object, 917 -/
  | allocA
  /-- in alloc_object and other functions which hold the mutex -/
  | allocM
  /-- KOS_suspend_context, 2831 -/
  | suspM
  /-- KOS_resume_context, 2848 -/
  | resM
  /-- KOS_collect_garbage, 2890 -/
  | collM
  /-- help_gc, 2727 -/
  | h0 (w : Who)
  /-- the loop of help_gc, 2744 -/
  | h2 (w : Who)
  /-- kos_wait_cond_var of help_gc, 2775; `woken` by a broadcast -/
  | hWait (w : Who) (woken : Bool)
  /-- helps to mark or to update, without the mutex -/
  | hWalk (w : Who)
  /-- end_walk of a helper, 591 -/
  | hEnd (w : Who)
  /-- behind the wait of help_gc, 2777 -/
  | hChk (w : Who)
  /-- help_gc returns -/
  | hRet (w : Who)
  /-- KOS_collect_garbage, 2904 -/
  | c2
  /-- KOS_collect_garbage, 2916 -/
  | c3
  /-- stop_the_world, 1232 -/
  | c4
  /-- the loop of stop_the_world, 1234 -/
  | c5
  /-- kos_wait_cond_var of stop_the_world, 1261 -/
  | cWait (woken : Bool)
  /-- marking of roots, 2931 -/
  | c6
  /-- begin_walk of gray_to_black, 1778 -/
  | c7
  /-- a walk of the collector, without the mutex -/
  | cWalk (p : Ph)
  /-- end_walk of the collector, 591 -/
  | c8 (p : Ph)
  /-- kos_wait_cond_var of end_walk, 598 -/
  | cWW (p : Ph) (woken : Bool)
  /-- behind gray_to_black, 2947 -/
  | c9
  /-- evacuate, without the mutex, 2966 -/
  | cEvac
  /-- alloc_object in evacuate -/
  | cEvA
  /-- behind evacuate, 2974 -/
  | c10
  /-- update_after_evacuation, 2425 -/
  | c10b
  /-- updating of roots, 2438 -/
  | c11
  /-- the end of KOS_collect_garbage, 3022 -/
  | cEnd
  /-- the end of KOS_collect_garbage, 3024 -/
  | cFin
deriving DecidableEq, Repr

/-- What a thread does next, where there is a choice. -/
inductive Act
  /-- the only thing to do, or the usual one -/
  | go
  /-- the other way: running out of memory in the phases of the collector,
      another round of evacuation -/
  | alt
  /-- uses the heap -/
  | work
  /-- kos_help_gc -/
  | help
  /-- alloc_object -/
  | alloc
  /-- another function which takes the mutex -/
  | lock
  /-- takes a page, `ctx->cur_page` -/
  | page
  /-- release_current_page_locked -/
  | release
  | suspend
  | resume
  | collect
  /-- KOS_instance_register_thread -/
  | link
  /-- KOS_instance_unregister_thread, its second part -/
  | unlink
  /-- takes the last page from `heap->walk_pages` -/
  | last
  /-- wakes up although nobody signalled -/
  | spurious
deriving DecidableEq, Repr

structure S where
  /-- the holder of `heap->mutex` -/
  owner : Option Nat
  /-- `heap->gc_state` -/
  st : Hs
  /-- `heap->threads_to_stop` -/
  toStop : Nat
  /-- `heap->walk_threads` -/
  walk : Nat
  /-- `heap->walk_pages` is not null -/
  pages : Bool
  /-- the list of contexts; 0 is the main thread -/
  ctxs : List Nat
  pc : Nat → Pc
  /-- `ctx->gc_state` -/
  gc : Nat → Gc
  /-- `ctx->cur_page` is not null -/
  page : Nat → Bool
  /-- KOS_EVENT_GC is set in `ctx->event_flags` -/
  ev : Nat → Bool

def upd {α : Type} (f : Nat → α) (k : Nat) (x : α) : Nat → α := fun j => if j = k then x else f j

/-- The main thread runs, nothing else happened. -/
def S.init : S where
  owner := none
  st := .inactive
  toStop := 0
  walk := 0
  pages := false
  ctxs := [0]
  pc := upd (fun _ => .out) 0 .run
  gc := fun _ => .inactive
  page := fun _ => false
  ev := fun _ => false

/-- The outcome of a step: impossible, an assertion fails, or the new state. -/
inductive Res
  | no
  | bad
  | ok (s : S)

def Res.and (r : Res) (f : S → Res) : Res :=
  match r with
  | .no => .no
  | .bad => .bad
  | .ok s => f s

/-- An assertion. -/
def check (b : Bool) (r : Res) : Res := if b then r else .bad

/-- kos_lock_mutex -/
def take (t : Nat) (pc : Pc) (s : S) : Res :=
  match s.owner with
  | none => .ok { s with owner := some t, pc := upd s.pc t pc }
  | some _ => .no

/-- kos_unlock_mutex; a wait on a condition variable also does this. -/
def drop (t : Nat) (pc : Pc) (s : S) : Res := .ok { s with owner := none, pc := upd s.pc t pc }

def goto (t : Nat) (pc : Pc) (s : S) : Res := .ok { s with pc := upd s.pc t pc }

def wakeHelper : Pc → Pc
  | .hWait w _ => .hWait w true
  | x => x

/-- release_helper_threads, 570-573 -/
def broadcast (s : S) : S := { s with pc := fun t => wakeHelper (s.pc t) }

def wakeEng : Pc → Pc
  | .cWait _ => .cWait true
  | x => x

/-- kos_signal_cond_var(heap->engagement_cond); at most one thread waits. -/
def signalEng (s : S) : S := { s with pc := fun t => wakeEng (s.pc t) }

def wakeWalk : Pc → Pc
  | .cWW p _ => .cWW p true
  | x => x

/-- kos_signal_cond_var(heap->walk_cond); at most one thread waits. -/
def signalWalk (s : S) : S := { s with pc := fun t => wakeWalk (s.pc t) }

/-- release_current_page_locked, 836-852 -/
def releasePage (t : Nat) (s : S) : Res :=
  if s.page t then
    check (s.st = .inactive ∨ s.st = .init ∨ s.gc t = .engaged) (.ok { s with page := upd s.page t false })
  else .ok s

/-- `--heap->threads_to_stop` on 32 bits -/
def dec (n : Nat) : Nat := if n = 0 then 4294967295 else n - 1

/-- engage_in_gc, 2706-2721 -/
def engage (t : Nat) (g : Gc) (s : S) : Res :=
  let s := { s with gc := upd s.gc t g }
  if s.st = .init then
    let s := { s with toStop := dec s.toStop }
    .ok (if s.toStop = 0 then signalEng s else s)
  else check (s.toStop = 0) (.ok s)

/-- The contexts which have to be stopped, 1241-1252. -/
def count (s : S) : Nat := s.ctxs.countP (fun t => s.gc t = .inactive)

/-- `assert( ! ctx->cur_page)`, 1248 -/
def pagesOk (s : S) : Bool := s.ctxs.all (fun t => s.gc t = .inactive || !s.page t)

/-- `assert(ctx->gc_state != GC_INACTIVE)`, 1793 and 2476 -/
def allStopped (s : S) : Bool := s.ctxs.all (fun t => s.gc t ≠ .inactive)

/-- begin_walk of a helper -/
def helperWalk (t : Nat) (w : Who) (s : S) : Res := drop t (.hWalk w) { s with walk := s.walk + 1 }

/-- begin_walk of the collector -/
def mainWalk (t : Nat) (p : Ph) (s : S) : Res :=
  drop t (.cWalk p) (broadcast { s with walk := s.walk + 1 })

/-- The body of the loop of help_gc up to the wait, 2744-2775. -/
def helpBody (t : Nat) (w : Who) (s : S) : Res :=
  match s.st with
  | .mark => helperWalk t w s
  | .update => if s.pages then helperWalk t w s else drop t (.hWait w false) s
  | _ => drop t (.hWait w false) s

/-- end_walk of a helper, and the wait which follows, 591-596 and 2775. -/
def helperEnd (t : Nat) (w : Who) (s : S) : Res :=
  check (0 < s.walk)
    (let s := { s with walk := s.walk - 1 }
     drop t (.hWait w false) (if s.walk = 0 then signalWalk s else s))

/-- What follows the walks of the collector. -/
def afterWalk : Ph → Pc
  | .mark => .c9
  | .upd => .c11

/-- end_walk of the collector up to the wait, 591-598. -/
def mainEnd (t : Nat) (p : Ph) (s : S) : Res :=
  check (0 < s.walk)
    (let s := { s with walk := s.walk - 1 }
     if s.walk = 0 then goto t (afterWalk p) s else drop t (.cWW p false) s)

/-- Behind the wait of end_walk, 599. -/
def mainWait (t : Nat) (p : Ph) (s : S) : Res :=
  match s.owner with
  | none =>
    if s.walk = 0 then .ok { s with owner := some t, pc := upd s.pc t (afterWalk p) }
    else drop t (.cWW p false) s
  | some _ => .no

/-- The loop of stop_the_world, 1234-1262. -/
def stopLoop (t : Nat) (s : S) : Res :=
  check (pagesOk s)
    (let s := { s with toStop := count s }
     if s.toStop = 0 then goto t .c6 s else drop t (.cWait false) s)

/-- The beginning of help_gc, 2727-2742. -/
def helpBegin (t : Nat) (w : Who) (s : S) : Res :=
  check (s.gc t = .inactive)
    (if s.st = .inactive then goto t (.hRet w) s
     else check (!s.page t || s.st = .init)
       ((releasePage t s).and fun s => (engage t .engaged s).and (goto t (.h2 w))))

/-- The condition of the loop of help_gc, and what follows the loop, 2777-2781. -/
def helpCheck (t : Nat) (w : Who) (s : S) : Res :=
  if s.st = .inactive then goto t (.hRet w) { s with gc := upd s.gc t .inactive }
  else goto t (.h2 w) s

/-- help_gc returns to its caller. -/
def helpReturn (t : Nat) (w : Who) (s : S) : Res :=
  match w with
  | .alloc => check (!s.page t) (goto t .allocM s)
  | _ => drop t .run s

/-- KOS_suspend_context, 2831-2835. -/
def suspendBody (t : Nat) (s : S) : Res :=
  check (s.gc t = .inactive)
    ((releasePage t s).and fun s => (engage t .suspended s).and (drop t .susp))

/-- KOS_resume_context, 2848-2865. -/
def resumeBody (t : Nat) (s : S) : Res :=
  check (s.gc t = .suspended)
    (let s := { s with gc := upd s.gc t .inactive }
     if s.st = .inactive then drop t .run s else goto t (.h0 .resume) s)

/-- KOS_collect_garbage, 2890-2902. -/
def collectBody (t : Nat) (s : S) : Res :=
  if s.st = .inactive then goto t .c2 { s with st := .init }
  else goto t (.h0 .plain) s

/-- kos_set_global_event and kos_clear_global_event, kos_instance.c 1210-1248 -/
def setEvents (b : Bool) (s : S) : S := { s with ev := fun t => if t ∈ s.ctxs then b else s.ev t }

/-- Registration of a context up to KOS_resume_context, kos_instance.c 171-194. -/
def linkCtx (t : Nat) (s : S) : Res :=
  .ok { s with ctxs := t :: s.ctxs, pc := upd s.pc t .susp, gc := upd s.gc t .suspended,
               page := upd s.page t false, ev := upd s.ev t (s.ev 0) }

/-- kos_instance.c 154-164; the main thread is not removed. -/
def unlinkCtx (t : Nat) (s : S) : Res :=
  if t = 0 then .no else .ok { s with ctxs := s.ctxs.erase t, pc := upd s.pc t .out }

/-- One step of thread `t`. -/
def next (t : Nat) (a : Act) (s : S) : Res :=
  match s.pc t, a with
  | .out, .link => linkCtx t s
  | .run, .work => .ok s
  | .run, .help => if s.st = .inactive then .ok s else goto t .lHelp s
  | .run, .alloc => take t .allocA s
  | .run, .lock => take t .allocM s
  | .run, .suspend => take t .suspM s
  | .run, .collect => take t .collM s
  | .susp, .resume => take t .resM s
  | .susp, .unlink => unlinkCtx t s
  | .lHelp, .go => take t (.h0 .plain) s
  | .allocA, .go =>
    if s.st ≠ .inactive ∧ s.gc t = .inactive then goto t (.h0 .alloc) s else goto t .allocM s
  | .allocM, .page => .ok { s with page := upd s.page t true }
  | .allocM, .release => releasePage t s
  | .allocM, .go => drop t .run s
  | .suspM, .go => suspendBody t s
  | .resM, .go => resumeBody t s
  | .collM, .go => collectBody t s
  | .h0 w, .go => helpBegin t w s
  | .h2 w, .go => check (!s.page t) (helpBody t w s)
  | .hWait w true, .go => take t (.hChk w) s
  | .hWait w _, .spurious => take t (.hChk w) s
  | .hWalk _, .work => .ok s
  | .hWalk _, .last => .ok { s with pages := false }
  | .hWalk w, .go => take t (.hEnd w) s
  | .hEnd w, .go => helperEnd t w s
  | .hChk w, .go => helpCheck t w s
  | .hRet w, .go => helpReturn t w s
  | .c2, .go => goto t .c3 (setEvents true s)
  | .c3, .go => (releasePage t { s with gc := upd s.gc t .engaged }).and (goto t .c4)
  | .c4, .go => check (s.toStop = 0) (goto t .c5 s)
  | .c5, .go => stopLoop t s
  | .cWait true, .go => take t .c5 s
  | .cWait _, .spurious => take t .c5 s
  | .c6, .go => check (allStopped s) (goto t .c7 { s with st := .mark })
  | .c6, .alt => check (allStopped s) (goto t .cEnd s)
  | .c7, .go => check (s.walk = 0) (mainWalk t .mark s)
  | .cWalk _, .work => .ok s
  | .cWalk .upd, .last => .ok { s with pages := false }
  | .cWalk .mark, .go => take t (.c8 .mark) s
  | .cWalk .upd, .go => if s.pages then .no else take t (.c8 .upd) s
  | .c8 p, .go => mainEnd t p s
  | .cWW p true, .go => mainWait t p s
  | .cWW p _, .spurious => mainWait t p s
  | .c9, .go => drop t .cEvac { s with st := .evac }
  | .c9, .alt => goto t .cEnd s
  | .cEvac, .work => .ok s
  | .cEvac, .alloc => take t .cEvA s
  | .cEvac, .go =>
    (releasePage t s).and (take t .c10)
  | .cEvA, .page => .ok { s with page := upd s.page t true }
  | .cEvA, .release => releasePage t s
  | .cEvA, .go => drop t .cEvac s
  | .c10, .go => goto t .c10b { s with st := .update }
  | .c10b, .go =>
    check (s.walk = 0 ∧ s.pages = false ∧ s.page t = false) (mainWalk t .upd { s with pages := true })
  | .c10b, .alt =>
    check (s.walk = 0 ∧ s.pages = false ∧ s.page t = false) (goto t .c11 s)
  | .c11, .go => check (allStopped s && s.ctxs.all (fun t => !s.page t)) (goto t .cEnd s)
  | .c11, .alt =>
    check (allStopped s && s.ctxs.all (fun t => !s.page t)) (drop t .cEvac { s with st := .evac })
  | .cEnd, .go => goto t .cFin (setEvents false s)
  | .cFin, .go =>
    drop t .run (broadcast { s with gc := upd s.gc t .inactive, st := .inactive })
  | _, _ => .no

/-- The states which can be reached. -/
inductive Reach : S → Prop
  | init : Reach .init
  | step {s s' : S} (t : Nat) (a : Act) : Reach s → next t a s = .ok s' → Reach s'

end Verif.Stop
