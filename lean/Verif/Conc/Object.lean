import Verif.Conc.Array

/-!
Model of the property tables of objects as used by several threads, core/kos_object.c.

Every atomic access to the shared memory which matters is one step, and the steps of all threads are interleaved in any order; the memory is
sequentially consistent. Tables are numbered in the order in which they are linked by `new_prop_table`: table `k + 1` is the new table of table
`k`. Keys and values are numbers; two keys are equal if they are the same number, `Rules.hash` is the hash of a key.

Simplified: a key never changes once it is written, so that reading a key and the compare-and-swap of an empty one which follows (lines 655-672,
236-244) are one step, and so are the writes of key, hash and count by a thread which copies (236-238); comparing keys (172-196) reads the hash only
to be faster (a thread which has read a hash that was not written yet may moreover take equal keys for different ones, which is left out).
`num_slots_used` is only used to decide if the table should be moved: here it may be moved after any write, to a table of any size. An object has a
table from the beginning. Only own properties, without getters and setters. Not modelled: the garbage collector.
-/
namespace Verif.PropTab
open Verif.Conc (upd)

/-- Value of a slot; core/kos_object.c:52-64 -/
inductive Val
  | val (v : Nat)
  | tomb
  | closed
  | reserved
  deriving DecidableEq, Repr

/-- What a thread does: `KOS_get_property_shallow`, `KOS_set_property`, `KOS_delete_property`. -/
inductive Op
  | get (k : Nat)
  | set (k v : Nat)
  | del (k : Nat)
  deriving DecidableEq, Repr

def Op.key : Op → Nat
  | .get k => k
  | .set k _ => k
  | .del k => k

/-- What is to be written; core/kos_object.c:847 deletes by writing a tombstone. -/
def Op.value : Op → Val
  | .set _ v => .val v
  | _ => .tomb

/-- What a thread continues with after it has helped to copy table `k`. -/
inductive Cont
  /-- the same in table `k + 1`, lines 604, 722 -/
  | next (o : Op)
  /-- again from the table of the object, line 688 -/
  | again (o : Op)
  /-- nothing more to do, line 807 -/
  | stop
  deriving DecidableEq, Repr

/-- Where a thread is in `copy_table` and `salvage_item`, lines 203-335; `i` is a slot of the old table, `p` of the new table. -/
inductive CopyPc
  /-- about to read `num_slots_open`, line 288 -/
  | start
  /-- about to increment `active_copies`, line 294 -/
  | inc (i : Nat)
  /-- about to close an empty or deleted slot, line 217 -/
  | fast (i : Nat)
  /-- about to read the value, line 220 -/
  | rd (i : Nat)
  /-- about to read key and hash, lines 224-226 -/
  | key (i : Nat)
  /-- about to claim a slot in the new table, line 236; `hb`: the hash was not 0; `n`: number of slots already seen -/
  | claim (i k : Nat) (hb : Bool) (n : Nat)
  /-- about to reserve, line 253 -/
  | rsv (i p : Nat)
  /-- about to take the value and close the slot, line 258 -/
  | swap (i p : Nat)
  /-- about to write the value, line 272; `ret` is returned -/
  | put (i p : Nat) (v : Val) (ret : Bool)
  /-- about to decrement `num_slots_open`, line 302 -/
  | dec (i : Nat)
  /-- about to read `num_slots_open`, line 309 -/
  | chk (i : Nat)
  /-- about to decrement `active_copies`, line 320 -/
  | leave
  /-- waiting for the other threads, line 321 -/
  | wait
  /-- about to compare and swap `props`, line 326 -/
  | adv
  deriving DecidableEq, Repr

inductive Local
  | idle
  /-- about to read `props`, lines 579, 688, 793 -/
  | props (o : Op)
  /-- about to read the key of the slot, `n` slots already seen; lines 509, 655, 670 -/
  | key (o : Op) (j n : Nat)
  /-- about to write the hash, line 676 -/
  | hash (o : Op) (j n : Nat)
  /-- about to read the value of a slot with key `k`, lines 510, 700 -/
  | val (o : Op) (j n k : Nat)
  /-- about to compare and swap the value, line 715 -/
  | cas (o : Op) (j n : Nat) (x : Val)
  /-- about to read the value again, line 717 -/
  | re (o : Op) (j n : Nat)
  /-- the property was written to table `j`: should it be moved, line 806 -/
  | fin (j : Nat)
  /-- about to read `new_prop_table` in `resize_prop_table`, line 389 -/
  | rz (c : Cont) (j : Nat)
  /-- about to set `new_prop_table` of table `j`, line 423; the new table has capacity `m` -/
  | link (c : Cont) (j m : Nat)
  /-- about to read `new_prop_table` and `active_copies` in `help_copy_table`, lines 341-345 -/
  | help (c : Cont) (k : Nat)
  /-- copying table `k` to table `k + 1` -/
  | copy (c : Cont) (k : Nat) (pc : CopyPc)
  deriving DecidableEq, Repr

/-- core/kos_object_internal.h:154-162 `KOS_OBJECT_STORAGE`, and the object: `props` is `data`. `last` is the number of the last table. -/
structure Mem where
  cap : Nat → Nat
  key : Nat → Nat → Option Nat
  val : Nat → Nat → Val
  last : Nat
  data : Nat

/-- The same, with `num_slots_open`, `active_copies`, and for every slot if its hash is written; and the threads. -/
structure St extends Mem where
  «open» : Nat → Nat
  active : Nat → Nat
  hashed : Nat → Nat → Bool
  th : Nat → Local

/-- What is visible from outside: thread `t` begins an operation, and results of finished operations. -/
inductive Ev
  | begin (t : Nat) (o : Op)
  | found (t : Nat) (x : Val)
  /-- there is no such property -/
  | absent (t : Nat)
  | wrote (t : Nat)
  /-- another thread wrote at the same time and the value was not written -/
  | lost (t : Nat)
  deriving DecidableEq, Repr

/-- Everything which is not determined by the state: what an idle thread begins to do, whether a weak compare-and-swap fails for no reason and
allocation fails, whether the table is to be moved, and the capacity of a new table. -/
inductive Choice
  | go
  | fail
  | op (o : Op)
  | move
  | cap (m : Nat)
  deriving DecidableEq, Repr

/-- `hash`: hash of a key. `wait`: a thread which copies does not read the hash of a key before it was written. -/
structure Rules where
  hash : Nat → Nat
  wait : Bool

inductive Res
  | ok (s : St) (e : Option Ev)
  /-- an assertion fails, or access through a null pointer -/
  | bad
  /-- the thread cannot make such a step -/
  | no

def upd2 {α : Type} (f : Nat → Nat → α) (j p : Nat) (x : α) : Nat → Nat → α := upd f j (upd (f j) p x)

def St.goto (s : St) (t : Nat) (l : Local) : St := { s with th := upd s.th t l }

/-- Slot of table `j` where key `k` is looked for after `n` others. -/
def slot (r : Rules) (s : Mem) (j k n : Nat) : Nat := (r.hash k + n) % s.cap j

/-- Slot where a thread which copies looks for key `k`; lines 226-227, 249. -/
def copySlot (r : Rules) (s : Mem) (j k : Nat) (hb : Bool) (n : Nat) : Nat := ((if hb then r.hash k else 0) + n) % s.cap j

/-- Next slot, line 314. -/
def nextSlot (s : Mem) (k i : Nat) : Nat := (i + 1) % s.cap k

/-- What follows after `help_copy_table`: lines 604, 722; 688; 807. -/
def Cont.resume (c : Cont) (k : Nat) : Local :=
  match c with
  | .next o => .key o (k + 1) 0
  | .again o => .props o
  | .stop => .idle

/-- core/kos_object.c:203-335 `salvage_item`, `copy_table` -/
def copyStep (r : Rules) (s : St) (t : Nat) (c : Cont) (k : Nat) (pc : CopyPc) : Res :=
  match pc with
  | .start => .ok (s.goto t (.copy c k (.inc (64 * (s.cap k - s.open k) % s.cap k)))) none
  | .inc i => .ok ({ s with active := upd s.active k (s.active k + 1) }.goto t (.copy c k (.fast i))) none
  | .fast i =>
    if s.val k i = .tomb then .ok ({ s with val := upd2 s.val k i .closed }.goto t (.copy c k (.dec i))) none
    else .ok (s.goto t (.copy c k (.rd i))) none
  | .rd i =>
    if s.val k i = .closed then .ok (s.goto t (.copy c k (.chk i))) none
    else .ok (s.goto t (.copy c k (.key i))) none
  | .key i =>
    match s.key k i with
    | none => .bad
    | some x => if r.wait && !s.hashed k i then .no else .ok (s.goto t (.copy c k (.claim i x (s.hashed k i) 0))) none
  | .claim i x hb n =>
    match s.key (k + 1) (copySlot r s.toMem (k + 1) x hb n) with
    | none =>
      .ok ({ s with
        key := upd2 s.key (k + 1) (copySlot r s.toMem (k + 1) x hb n) (some x),
        hashed := upd2 s.hashed (k + 1) (copySlot r s.toMem (k + 1) x hb n) hb }.goto t
          (.copy c k (.rsv i (copySlot r s.toMem (k + 1) x hb n)))) none
    | some y =>
      if y = x then .ok (s.goto t (.copy c k (.rsv i (copySlot r s.toMem (k + 1) x hb n)))) none
      else .ok (s.goto t (.copy c k (.claim i x hb (n + 1)))) none
  | .rsv i p =>
    if s.val (k + 1) p = .tomb then .ok ({ s with val := upd2 s.val (k + 1) p .reserved }.goto t (.copy c k (.swap i p))) none
    else .ok (s.goto t (.copy c k (.chk i))) none
  | .swap i p =>
    if s.val k i = .closed then .ok (s.goto t (.copy c k (.put i p .tomb false))) none
    else .ok ({ s with val := upd2 s.val k i .closed }.goto t (.copy c k (.put i p (s.val k i) true))) none
  | .put i p v ret =>
    if s.val (k + 1) p = .reserved then
      .ok ({ s with val := upd2 s.val (k + 1) p v }.goto t (.copy c k (if ret then .dec i else .chk i))) none
    else .ok (s.goto t (.copy c k (if ret then .dec i else .chk i))) none
  | .dec i =>
    .ok ({ s with «open» := upd s.open k (s.open k - 1) }.goto t
      (.copy c k (if s.open k = 1 then .leave else .fast (nextSlot s.toMem k i)))) none
  | .chk i => .ok (s.goto t (.copy c k (if s.open k = 0 then .leave else .fast (nextSlot s.toMem k i)))) none
  | .leave =>
    .ok ({ s with active := upd s.active k (s.active k - 1) }.goto t (.copy c k (if 1 < s.active k then .wait else .adv))) none
  | .wait => if s.active k = 0 then .ok (s.goto t (.copy c k .adv)) none else .ok (s.goto t (.copy c k .wait)) none
  | .adv =>
    if s.data = k then .ok ({ s with data := k + 1 }.goto t (c.resume k)) none
    else .ok (s.goto t (c.resume k)) none

/-- core/kos_object.c:497-543 `find_property`, 636-731 `set_property`: the key of a slot. `KOS_MAX_PROP_REPROBES` is 8. -/
def keyStep (r : Rules) (s : St) (t : Nat) (o : Op) (j n : Nat) (ch : Choice) : Res :=
  match s.key j (slot r s.toMem j o.key n), o with
  | none, .get _ => .ok (s.goto t .idle) (some (.absent t))
  | none, .del _ => .ok (s.goto t (.fin j)) (some (.absent t))
  | none, .set k _ =>
    if ch = .fail then .ok (s.goto t (.key o j n)) none
    else .ok ({ s with key := upd2 s.key j (slot r s.toMem j k n) (some k) }.goto t (.hash o j n)) none
  | some x, .get _ => .ok (s.goto t (.val o j n x)) none
  | some x, _ =>
    if x = o.key then .ok (s.goto t (.val o j n x)) none
    else if 8 < n then .ok (s.goto t (.rz (.again o) j)) none
    else .ok (s.goto t (.key o j (n + 1))) none

/-- `find_property`: the value of a slot with key `x`. -/
def findStep (s : St) (t : Nat) (o : Op) (j n x : Nat) (v : Val) : Res :=
  match v with
  | .closed => .ok (s.goto t (.help (.next o) j)) none
  | .tomb =>
    if x = o.key then .ok (s.goto t .idle) (some (.absent t))
    else if n = s.cap j then .ok (s.goto t .idle) (some (.absent t))
    else .ok (s.goto t (.key o j (n + 1))) none
  | v =>
    if x = o.key then .ok (s.goto t .idle) (some (.found t v))
    else if n = s.cap j then .ok (s.goto t .idle) (some (.absent t))
    else .ok (s.goto t (.key o j (n + 1))) none

/-- core/kos_object.c:376-457 `resize_prop_table` -/
def linkStep (s : St) (t : Nat) (c : Cont) (j m : Nat) : Res :=
  if s.last = j then
    .ok ({ s with cap := upd s.cap (j + 1) m, «open» := upd s.open (j + 1) m, active := upd s.active (j + 1) 0, last := j + 1 }.goto t
      (.copy c j .start)) none
  else .ok (s.goto t (.help c j)) none

/-- One step of thread `t`. -/
def step (r : Rules) (s : St) (t : Nat) (ch : Choice) : Res :=
  match s.th t with
  | .idle =>
    match ch with
    | .op o => .ok (s.goto t (.props o)) (some (.begin t o))
    | _ => .no
  | .props o => .ok (s.goto t (.key o s.data 0)) none
  | .key o j n => keyStep r s t o j n ch
  | .hash o j n => .ok ({ s with hashed := upd2 s.hashed j (slot r s.toMem j o.key n) true }.goto t (.val o j n o.key)) none
  | .val o j n x =>
    match o with
    | .get _ => findStep s t o j n x (s.val j (slot r s.toMem j o.key n))
    | _ =>
      if s.val j (slot r s.toMem j o.key n) = .closed then .ok (s.goto t (.help (.next o) j)) none
      else .ok (s.goto t (.cas o j n (s.val j (slot r s.toMem j o.key n)))) none
  | .cas o j n x =>
    if s.val j (slot r s.toMem j o.key n) = x then
      .ok ({ s with val := upd2 s.val j (slot r s.toMem j o.key n) o.value }.goto t (.fin j)) (some (.wrote t))
    else .ok (s.goto t (.re o j n)) none
  | .re o j n =>
    if s.val j (slot r s.toMem j o.key n) = .closed then .ok (s.goto t (.help (.next o) j)) none
    else .ok (s.goto t (.fin j)) (some (.lost t))
  | .fin j =>
    match ch with
    | .move => .ok (s.goto t (.rz .stop j)) none
    | _ => .ok (s.goto t .idle) none
  | .rz c j =>
    if j < s.last then .ok (s.goto t (.help c j)) none
    else
      match ch with
      | .cap m => if 0 < m then .ok (s.goto t (.link c j m)) none else .no
      | .fail => .ok (s.goto t .idle) none
      | _ => .no
  | .link c j m => linkStep s t c j m
  | .help c k =>
    if k < s.last then
      if s.active k = 0 then .ok (s.goto t (c.resume k)) none
      else .ok (s.goto t (.copy c k .start)) none
    else .bad
  | .copy c k pc => copyStep r s t c k pc

/-- An object without properties, with a table of capacity `m`; all threads are idle. -/
def fresh (m : Nat) : St :=
  ⟨⟨fun k => if k = 0 then m else 0, fun _ _ => none, fun _ _ => .tomb, 0, 0⟩,
   fun k => if k = 0 then m else 0, fun _ => 0, fun _ _ => false, fun _ => .idle⟩

/-- Executions of `n` threads, with the events in order. -/
inductive Run (r : Rules) (n : Nat) : St → List Ev → St → Prop
  | nil (s : St) : Run r n s [] s
  | quiet (s s' s'' : St) (es : List Ev) (t : Nat) (ch : Choice) : t < n → step r s t ch = .ok s' none → Run r n s' es s'' → Run r n s es s''
  | event (s s' s'' : St) (e : Ev) (es : List Ev) (t : Nat) (ch : Choice) :
      t < n → step r s t ch = .ok s' (some e) → Run r n s' es s'' → Run r n s (e :: es) s''

end Verif.PropTab
