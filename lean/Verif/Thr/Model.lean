/-
  Semaphores and the queue and stack of module threads
  (modules/kos_mod_threads.c 278-437, modules/threads.kos).

  `n` threads use one queue or one stack, interleaved in any order.  A step is
  one access to what threads share: an atomic read or compare-and-swap of the
  value of the semaphore, locking or unlocking its mutex, waiting on or
  signalling its condition variable, locking the mutex of the collection, or the
  whole body of a `with` statement, as the collection is used by holders of its
  mutex only.

  Simplified: memory is sequentially consistent; elements are numbers; counts are
  integers (pop converts other numbers differently in different places);
  suspending for garbage collections is left out (C79), so is running out of
  memory.
-/

namespace Verif.Thr

/-- KOS_MAX_SEM, kos_mod_threads.c 22 -/
def maxSem : Nat := 0x7FFFFFFF

inductive Kind
  | queue | stack
deriving DecidableEq, Repr

/-- Where a thread is.  `num` is what pop was asked for, `c` what acquire still
    wants, `l` what is pushed. -/
inductive Pc
  | idle
  /-- push, in front of `with this.mutex` -/
  | pushM (l : List Nat)
  /-- push, in `with this.mutex` -/
  | pushI (l : List Nat)
  /-- semaphore_release, 411 -/
  | relL (n : Nat)
  /-- semaphore_release, 414 -/
  | relR (n : Nat)
  /-- semaphore_release, 429 -/
  | relC (n old : Nat)
  /-- semaphore_release, 431 -/
  | relU
  /-- semaphore_release, 433 -/
  | relB
  /-- semaphore_acquire, 343 -/
  | acq (num c : Nat) (susp : Bool)
  /-- semaphore_acquire, 351 -/
  | acqL (num c : Nat)
  /-- semaphore_acquire, 358 -/
  | acqW (num c : Nat) (woken : Bool)
  /-- semaphore_acquire, 363 -/
  | acqC (num c : Nat) (susp : Bool) (old : Nat)
  /-- semaphore_acquire, 370 -/
  | acqU (num : Nat)
  /-- pop, in front of `with this.mutex` -/
  | popM (num : Nat)
  /-- pop, in `with this.mutex` -/
  | popT (num : Nat)
deriving DecidableEq, Repr

inductive Act
  | push (l : List Nat)
  | pop (num : Nat)
  | go
  /-- a weak compare-and-swap fails without a reason -/
  | fail
  /-- a thread wakes up without a reason -/
  | spurious
deriving DecidableEq, Repr

structure S where
  /-- `sem->value` -/
  value : Nat
  /-- the holder of `sem->mutex` -/
  sem : Option Nat
  /-- the holder of `this.mutex` -/
  mtx : Option Nat
  /-- `this.collection` -/
  coll : List Nat
  /-- `this.size` -/
  size : Int
  /-- `this.front` of a queue -/
  front : Nat
  pc : Nat → Pc
  /-- what the release of the semaphore at the end of push did not add, as it failed -/
  failed : Nat

def S.init : S where
  value := 0
  sem := none
  mtx := none
  coll := []
  size := 0
  front := 0
  pc := fun _ => .idle
  failed := 0

def upd {α : Type} (f : Nat → α) (k : Nat) (x : α) : Nat → α := fun j => if j = k then x else f j

/-- What the queue does in `with this.mutex` of pop: the elements and the new
    state.  threads.kos 41-55 -/
def queuePop (num : Nat) (s : S) : List Nat × S :=
  let size : Int := s.size - num
  let front := s.front + num
  let elems := (s.coll.take front).drop s.front
  if 8 < front ∧ (size / 4 < front ∨ 128 < front) then
    (elems, { s with coll := s.coll.drop front, size := size, front := 0 })
  else (elems, { s with size := size, front := front })

/-- What the stack does in `with this.mutex` of pop; array.pop throws if there are
    too few elements.  threads.kos 71-73 -/
def stackPop (num : Nat) (s : S) : Option (List Nat × S) :=
  if s.coll.length < num then none
  else some (s.coll.drop (s.coll.length - num), { s with coll := s.coll.take (s.coll.length - num), size := s.size - num })

/-- The outcome of a step: impossible, or a new state with the elements which a
    pop returned; `fails` if pop throws instead. -/
inductive Res
  | no
  | fails
  | ok (s : S) (result : Option (List Nat))

def goto (t : Nat) (x : Pc) (s : S) : Res := .ok { s with pc := upd s.pc t x } none

/-- kos_lock_mutex(sem->mutex) -/
def lockSem (t : Nat) (x : Pc) (s : S) : Res :=
  match s.sem with
  | none => .ok { s with sem := some t, pc := upd s.pc t x } none
  | some _ => .no

def unlockSem (t : Nat) (x : Pc) (s : S) : Res := .ok { s with sem := none, pc := upd s.pc t x } none

def lockMtx (t : Nat) (x : Pc) (s : S) : Res :=
  match s.mtx with
  | none => .ok { s with mtx := some t, pc := upd s.pc t x } none
  | some _ => .no

/-- The body of `with this.mutex` of push, threads.kos 16-17. -/
def pushBody (t : Nat) (l : List Nat) (s : S) : Res :=
  .ok { s with coll := s.coll ++ l, size := s.size + l.length, mtx := none, pc := upd s.pc t (.relL l.length) } none

/-- semaphore_release, 414-427 -/
def releaseRead (t n : Nat) (s : S) : Res :=
  if maxSem - s.value < n then
    .ok { s with sem := none, failed := s.failed + n, pc := upd s.pc t .idle } none
  else goto t (.relC n s.value) s

/-- semaphore_release, 429 -/
def releaseCas (t n old : Nat) (s : S) : Res :=
  if s.value = old then .ok { s with value := old + n, pc := upd s.pc t .relU } none
  else goto t (.relR n) s

def wake : Pc → Pc
  | .acqW num c _ => .acqW num c true
  | x => x

/-- semaphore_release, 433: kos_broadcast_cond_var -/
def broadcast (t : Nat) (s : S) : Res := .ok { s with pc := upd (fun u => wake (s.pc u)) t .idle } none

/-- What acquire wants to take, 344. -/
def decValue (old c : Nat) : Nat := if c < old then c else old

/-- semaphore_acquire, 343-361 -/
def acquireRead (t num c : Nat) (susp : Bool) (s : S) : Res :=
  if decValue s.value c = 0 then
    if susp then unlockSem t (.acqW num c false) s else goto t (.acqL num c) s
  else goto t (.acqC num c susp s.value) s

/-- Where acquire is after it took something, 366-372. -/
def acquired (num c : Nat) (susp : Bool) : Pc :=
  if c = 0 then (if susp then .acqU num else .popM num) else .acq num c susp

/-- semaphore_acquire, 363-366 -/
def acquireCas (t num c : Nat) (susp : Bool) (old : Nat) (s : S) : Res :=
  if s.value = old then
    .ok { s with value := old - decValue old c, pc := upd s.pc t (acquired num (c - decValue old c) susp) } none
  else goto t (.acq num c susp) s

def popBody (k : Kind) (t num : Nat) (s : S) : Res :=
  match k with
  | .queue =>
    let r := queuePop num s
    .ok { r.2 with mtx := none, pc := upd r.2.pc t .idle } (some r.1)
  | .stack =>
    match stackPop num s with
    | some r => .ok { r.2 with mtx := none, pc := upd r.2.pc t .idle } (some r.1)
    | none => .fails

/-- One step of thread `t`. -/
def step (k : Kind) (t : Nat) (a : Act) (s : S) : Res :=
  match s.pc t, a with
  | .idle, .push l => if l = [] then .no else goto t (.pushM l) s
  | .idle, .pop num => if 1 ≤ num ∧ num ≤ maxSem then goto t (.acq num num false) s else .no
  | .pushM l, .go => lockMtx t (.pushI l) s
  | .pushI l, .go => pushBody t l s
  | .relL n, .go => lockSem t (.relR n) s
  | .relR n, .go => releaseRead t n s
  | .relC n old, .go => releaseCas t n old s
  | .relC n _, .fail => goto t (.relR n) s
  | .relU, .go => unlockSem t .relB s
  | .relB, .go => broadcast t s
  | .acq num c susp, .go => acquireRead t num c susp s
  | .acqL num c, .go => lockSem t (.acq num c true) s
  | .acqW num c true, .go => lockSem t (.acq num c true) s
  | .acqW num c _, .spurious => lockSem t (.acq num c true) s
  | .acqC num c susp old, .go => acquireCas t num c susp old s
  | .acqC num c susp _, .fail => goto t (.acq num c susp) s
  | .acqU num, .go => unlockSem t (.popM num) s
  | .popM num, .go => lockMtx t (.popT num) s
  | .popT num, .go => popBody k t num s
  | _, _ => .no

/-- One step of one of `n` threads. -/
def next (k : Kind) (n t : Nat) (a : Act) (s : S) : Res := if t < n then step k t a s else .no

/-- What pushes and pops did, in the order in which they used the collection. -/
inductive Event
  | push (l : List Nat)
  | pop (num : Nat) (result : List Nat)
deriving DecidableEq, Repr

/-- What a step does to the collection. -/
def event (t : Nat) (s : S) (r : Option (List Nat)) : List Event :=
  match s.pc t, r with
  | .pushI l, _ => [.push l]
  | .popT num, some l => [.pop num l]
  | _, _ => []

/-- The states which can be reached, with what happened on the way. -/
inductive Reach (k : Kind) (n : Nat) : S → List Event → Prop
  | init : Reach k n .init []
  | step {s s' : S} {h : List Event} {r : Option (List Nat)} (t : Nat) (a : Act) :
      Reach k n s h → next k n t a s = .ok s' r →
      Reach k n s' (h ++ (if a = .go then event t s r else []))

end Verif.Thr
