/-
  Creating threads, waiting for them and releasing them: core/kos_threads.c 100-479,
  async and wait in modules/kos_mod_base.c 1879-2012, and their use when a garbage
  collection ends (core/kos_heap.c 3058-3059) and in KOS_instance_destroy
  (core/kos_instance.c 467-479).

  Threads run the functions below in any order and as often as they like.  A step is
  one access to what threads share: an atomic operation on a field of a KOS_THREAD,
  on the number of threads or on the private pointer of a thread object, or a section
  in which `new_mutex` is held.  Such a section is one step if all it uses is
  used only while `new_mutex` is held.

  Simplified:
  * Memory is sequentially consistent.  Suspending and resuming contexts is left out
    (C79); resuming may fail.
  * Every thread has one thread object.  An object which a call of `wait` uses is not
    collected.  A collection may find any other object unreachable at any time, and
    calls its finalizer (C74); then nobody waits for it any more.
  * `num_threads` does not overflow.
  * Values of `thread_handle` of different threads are different, and the handle is
    there when the thread starts.
  * KOS_print_exception runs no code of the program.
-/

namespace Verif.Join

/-- What the function of a thread gives. -/
inductive Result
  | ret (v : Nat)
  | exc (v : Nat)
deriving DecidableEq, Repr

/-- KOS_THREAD_FLAGS_E, core/kos_threads_internal.h 39-44 -/
structure Flags where
  disowned : Bool := false
  finished : Bool := false
  joining : Bool := false
  joined : Bool := false
deriving DecidableEq, Repr

/-- The local variables of kos_join_finished_threads; `all` is `join_all`, `rest`
    is `join_rest`, `np` and `nf` are `num_pending` and `num_finished`. -/
structure Scan where
  all : Bool
  i : Nat := 0
  np : Nat := 0
  nf : Nat := 0
  rest : Bool := false
deriving DecidableEq, Repr

/-- Who has called remove_thread or kos_thread_join. -/
inductive By
  /-- kos_thread_create -/
  | create
  /-- wait -/
  | wait
  /-- kos_join_finished_threads -/
  | scan (c : Scan)
deriving DecidableEq, Repr

/-- Where a thread is; `t` is the thread which it is about. -/
inductive Pc
  /-- does not exist yet -/
  | none
  /-- thread_proc, 366 -/
  | start
  /-- executes the program -/
  | run
  /-- alloc_thread, 131-155 -/
  | cSlot (t : Nat)
  /-- kos_thread_create, 420 -/
  | cCreate (t : Nat)
  /-- async, 1953 -/
  | cRef (t : Nat)
  /-- async, 1955 -/
  | cPriv (t : Nat)
  /-- wait, 1995 -/
  | wCheck (t : Nat)
  /-- wait, 2000 -/
  | wSwap (t : Nat)
  /-- kos_thread_join, 446 -/
  | jSelf (t : Nat) (k : By)
  /-- kos_thread_join, 455 -/
  | jOs (t : Nat) (k : By)
  /-- kos_thread_join, in pthread_join -/
  | jWait (t : Nat) (k : By)
  /-- kos_thread_join, 458-469 -/
  | jRes (t : Nat) (k : By)
  /-- kos_thread_join, 471 -/
  | jFlag (t : Nat) (k : By)
  /-- remove_thread, 200 -/
  | rIdx (t : Nat) (k : By)
  /-- remove_thread, 204-210 -/
  | rSlot (t i : Nat) (k : By)
  /-- remove_thread, 212 -/
  | rNum (t : Nat) (k : By)
  /-- remove_thread, 215 -/
  | rRel (t : Nat) (k : By)
  /-- kos_thread_disown, 220; `fin` if in the end all is released -/
  | dFlag (t : Nat) (fin : Bool)
  /-- kos_thread_disown, 222 -/
  | dRel (t : Nat) (fin : Bool)
  /-- kos_join_finished_threads, 244-250 -/
  | fBegin
  /-- kos_join_finished_threads, 252 -/
  | fNum (all : Bool)
  /-- kos_join_finished_threads, 267-278 -/
  | fLook (c : Scan)
  /-- kos_join_finished_threads, 280 -/
  | fCas (t : Nat) (f : Flags) (c : Scan)
  /-- kos_join_finished_threads, 285-288 -/
  | fRef (t : Nat) (c : Scan)
  /-- kos_join_finished_threads, 293 -/
  | fRel (t : Nat) (c : Scan)
  /-- kos_join_finished_threads, 329-344 -/
  | fNext (c : Scan)
  /-- thread_proc, 380-386 -/
  | tOut (r : Result)
  /-- thread_proc, 388 -/
  | tFlag
  /-- thread_proc, 390 -/
  | tUnreg
  /-- thread_proc has returned -/
  | dead
  /-- KOS_instance_destroy, behind kos_join_finished_threads -/
  | destroy
deriving DecidableEq, Repr

inductive Event
  /-- The function of thread `t` has given `r`. -/
  | gave (t : Nat) (r : Result)
  /-- A call of kos_thread_join in thread `a` has got `r` from thread `t`. -/
  | got (a t : Nat) (r : Result)
deriving DecidableEq, Repr

structure S where
  /-- memory of KOS_THREAD is allocated -/
  alive : Nat → Bool
  flags : Nat → Flags
  ref : Nat → Nat
  /-- `thread_idx` -/
  idx : Nat → Option Nat
  /-- `retval` or `exception` -/
  out : Nat → Option Result
  /-- pthread_join was called -/
  waited : Nat → Bool
  /-- The thread object can be used by the program. -/
  obj : Nat → Bool
  /-- The private pointer of the thread object is set. -/
  priv : Nat → Bool
  /-- `inst->threads.threads` -/
  slot : Nat → Option Nat
  /-- `inst->threads.num_threads` -/
  num : Int
  canCreate : Bool
  /-- holder of `new_mutex` -/
  mutex : Option Nat
  /-- Threads from `next` on do not exist. -/
  next : Nat
  pc : Nat → Pc
  log : List Event

/-- The main thread is thread 0. -/
def init : S where
  alive _ := false
  flags _ := {}
  ref _ := 0
  idx _ := none
  out _ := none
  waited _ := false
  obj _ := false
  priv _ := false
  slot _ := none
  num := 0
  canCreate := true
  mutex := none
  next := 1
  pc a := if a = 0 then .run else .none
  log := []

inductive Act
  | go
  /-- something for which there is no memory fails -/
  | fail
  /-- calls async -/
  | async
  /-- calls wait on the thread object of `t` -/
  | wait (t : Nat)
  /-- a garbage collection finds the thread object of `t` unreachable -/
  | collect (t : Nat)
  /-- a garbage collection ends -/
  | join
  /-- the function of the thread ends -/
  | give (r : Result)
  /-- the main thread calls KOS_instance_destroy -/
  | exit
deriving DecidableEq, Repr

/-- What is undefined, or stops the program. -/
inductive Why
  /-- memory is used which has been released -/
  | freed
  /-- pthread_join is called twice for one thread -/
  | twice
  /-- an assertion does not hold -/
  | assertion
deriving DecidableEq, Repr

inductive Res
  | ok (s : S)
  /-- cannot go on now -/
  | no
  | fails (w : Why)

def upd {α : Type} (f : Nat → α) (k : Nat) (x : α) : Nat → α := fun j => if j = k then x else f j

def goto (a : Nat) (p : Pc) (s : S) : S := { s with pc := upd s.pc a p }

/-- An access to the KOS_THREAD of `t`. -/
def access (t : Nat) (s : S) (r : Res) : Res := if s.alive t then r else .fails .freed

/-- alloc_thread, 139-152: the first free slot -/
def findSlot (max : Nat) (s : S) : Option Nat := (List.range max).find? fun i => s.slot i == none

/-- alloc_thread, 131-167 -/
def allocSlot (max a t : Nat) (s : S) : Res :=
  match s.mutex with
  | some _ => .no
  | none =>
    match (if s.canCreate then findSlot max s else none) with
    | some i => .ok (goto a (.cCreate t) { s with slot := upd s.slot i (some t), idx := upd s.idx t (some i), num := s.num + 1 })
    | none => .ok (goto a .run { s with alive := upd s.alive t false })

/-- set_thread_flags, 172-184 -/
def setFlag (t : Nat) (has : Flags → Bool) (set : Flags → Flags) (s : S) (k : S → S) : Res :=
  access t s (if has (s.flags t) then .fails .assertion else .ok (k { s with flags := upd s.flags t (set (s.flags t)) }))

/-- kos_thread_add_ref, 186-189 -/
def addRef (t : Nat) (s : S) (k : S → S) : Res :=
  access t s (.ok (k { s with ref := upd s.ref t (s.ref t + 1) }))

/-- release_thread, 191-195 -/
def release (t : Nat) (s : S) (k : S → S) : Res :=
  access t s (.ok (k { s with ref := upd s.ref t (s.ref t - 1), alive := upd s.alive t (s.ref t != 1) }))

/-- After kos_thread_join or remove_thread. -/
def back (a t : Nat) (k : By) (s : S) : S :=
  match k with
  | .create => goto a .run s
  | .wait => goto a (.dFlag t false) s
  | .scan c => goto a (.fRel t c) s

/-- After kos_join_finished_threads. -/
def scanEnd (a : Nat) (c : Scan) (s : S) : S := goto a (if c.all then .destroy else .run) s

/-- kos_join_finished_threads, 275-276 -/
def joinable (c : Scan) (f : Flags) : Bool :=
  f == { disowned := true, finished := true } || (c.all && f == { disowned := true }) || c.rest

/-- kos_join_finished_threads, 267-330: the next thread -/
def look (a : Nat) (c : Scan) (s : S) : Res :=
  match s.mutex with
  | some _ => .no
  | none =>
    match s.slot c.i with
    | none => .ok (goto a (.fNext c) s)
    | some t => access t s (
      if joinable c (s.flags t) then
        if (s.flags t).joining then .fails .assertion
        else .ok (goto a (.fCas t (s.flags t) c) { s with mutex := some a })
      else if !(s.flags t).joined && !(s.flags t).disowned then
        .ok (goto a (.fNext { c with np := c.np + 1, nf := if s.flags t == { finished := true } then c.nf + 1 else c.nf }) s)
      else .ok (goto a (.fNext c) s))

/-- kos_join_finished_threads, 332-344, and 262-265 of the next iteration -/
def nextSlot (max a : Nat) (c : Scan) (s : S) : S :=
  if c.i + 1 < max then goto a (.fLook { c with i := c.i + 1 }) s
  else if c.all && c.np != 0 then
    goto a (.fLook { c with i := 0, np := 0, nf := 0, rest := c.rest || (c.nf : Int) == s.num }) s
  else scanEnd a c s

/-- kos_join_finished_threads, 293-318: without `join_all`, an exception ends it -/
def afterJoin (a : Nat) (c : Scan) (bad : Bool) (s : S) : S :=
  if bad && !c.all then scanEnd a c s else goto a (.fNext c) s

/-- Is somebody using the thread object of `t`? -/
def inUse (t : Nat) (s : S) : Bool :=
  (List.range s.next).any fun b => s.pc b == .wCheck t || s.pc b == .wSwap t

/-- What the program can do. -/
def call (a : Nat) (x : Act) (s : S) : Res :=
  match x with
  | .async =>
    .ok (goto a (.cSlot s.next) { s with
      next := s.next + 1, alive := upd s.alive s.next true, flags := upd s.flags s.next {}, ref := upd s.ref s.next 1 })
  | .wait t =>
    if s.obj t then
      -- KOS_object_get_private, kos_mod_base.c 1993
      if s.priv t then .ok (goto a (.wCheck t) s) else .ok (goto a (.wSwap t) s)
    else .no
  | .collect t =>
    if s.obj t && !inUse t s then
      if s.priv t then .ok (goto a (.dFlag t false) { s with obj := upd s.obj t false, priv := upd s.priv t false })
      else .ok { s with obj := upd s.obj t false }
    else .no
  | .join => .ok (goto a (.fNum false) s)
  | .give r => if a = 0 then .no else .ok (goto a (.tOut r) { s with log := s.log ++ [.gave a r] })
  | .exit => if a = 0 then .ok (goto a .fBegin s) else .no
  | _ => .no

/-- kos_thread_join, 458-469; resuming the context may fail -/
def readResult (a t : Nat) (k : By) (x : Act) (s : S) : Res :=
  access t s
    (match x with
    | .fail => .ok (goto a (.jFlag t k) s)
    | _ =>
      match s.out t with
      | some r => .ok (goto a (.jFlag t k) { s with log := s.log ++ [.got a t r] })
      | none => .fails .assertion)

/-- One step of thread `a`; `max` is `max_threads`. -/
def step (max a : Nat) (x : Act) (s : S) : Res :=
  match s.pc a with
  | .none | .dead => .no
  | .start =>
    match x with
    -- KOS_instance_register_thread fails
    | .fail => .ok (goto a (.tOut (.exc 0)) { s with log := s.log ++ [.gave a (.exc 0)] })
    | _ => .ok (goto a .run s)
  | .run => call a x s
  | .cSlot t => allocSlot max a t s
  | .cCreate t =>
    match x with
    | .fail => .ok (goto a (.rIdx t .create) s)
    | _ => .ok (goto t .start (goto a (.cRef t) s))
  | .cRef t => addRef t s (goto a (.cPriv t))
  | .cPriv t => .ok (goto a .run { s with priv := upd s.priv t true, obj := upd s.obj t true })
  | .wCheck t => access t s (if a = t then .ok (goto a .run s) else .ok (goto a (.wSwap t) s))
  | .wSwap t =>
    if s.priv t then .ok (goto a (.jSelf t .wait) { s with priv := upd s.priv t false }) else .ok (goto a .run s)
  | .jSelf t k => access t s (.ok (if a = t then back a t k s else goto a (.jOs t k) s))
  | .jOs t k =>
    access t s (if s.waited t then .fails .twice else .ok (goto a (.jWait t k) { s with waited := upd s.waited t true }))
  | .jWait t k => if s.pc t = .dead then .ok (goto a (.jRes t k) s) else .no
  | .jRes t k => readResult a t k x s
  | .jFlag t k => setFlag t Flags.joined (fun f => { f with joined := true }) s (goto a (.rIdx t k))
  | .rIdx t k =>
    access t s (match s.idx t with
      | some i => .ok (goto a (.rSlot t i k) { s with idx := upd s.idx t none })
      | none => .ok (goto a (.rRel t k) s))
  | .rSlot t i k =>
    match s.mutex with
    | some _ => .no
    | none =>
      if s.slot i = some t then .ok (goto a (.rNum t k) { s with slot := upd s.slot i none }) else .fails .assertion
  | .rNum t k => .ok (goto a (.rRel t k) { s with num := s.num - 1 })
  | .rRel t k => release t s (back a t k)
  | .dFlag t e => setFlag t Flags.disowned (fun f => { f with disowned := true }) s (goto a (.dRel t e))
  | .dRel t e => release t s (goto a (if e then .destroy else .run))
  | .fBegin =>
    match s.mutex with
    | some _ => .no
    | none => .ok (goto a (.fNum true) { s with canCreate := false })
  | .fNum all => .ok (if s.num = 0 then scanEnd a { all := all } s else goto a (.fLook { all := all }) s)
  | .fLook c => look a c s
  | .fCas t f c =>
    access t s (
      if s.flags t = f then .ok (goto a (.fRef t c) { s with flags := upd s.flags t { f with joining := true } })
      else .ok (goto a (.fNext { c with np := c.np + 1 }) { s with mutex := none }))
  | .fRef t c =>
    if s.alive t && s.ref t = 0 then .fails .assertion
    else addRef t { s with mutex := none } (goto a (.jSelf t (.scan c)))
  | .fRel t c =>
    -- whether the result was an exception does not matter to other threads
    release t s (afterJoin a c (x == .fail))
  | .fNext c => .ok (nextSlot max a c s)
  | .tOut r => access a s (.ok (goto a .tFlag { s with out := upd s.out a (some r) }))
  | .tFlag => setFlag a Flags.finished (fun f => { f with finished := true }) s (goto a .tUnreg)
  | .tUnreg => .ok (goto a .dead s)
  | .destroy =>
    match x with
    | .collect t =>
      if s.priv t then .ok (goto a (.dFlag t true) { s with obj := upd s.obj t false, priv := upd s.priv t false })
      else .no
    | _ => .no

end Verif.Join
