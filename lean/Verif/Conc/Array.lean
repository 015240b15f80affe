/-!
Model of the storage of arrays as used by several threads, core/kos_array.c.

Every atomic access to the shared memory is one step, and the steps of all threads are interleaved in any order; the memory is sequentially
consistent (the code uses relaxed accesses, acquire on `next` and full compare-and-swap). Buffers are numbered in the order in which they are
linked by `next`: buffer `k + 1` is the next one of buffer `k`. A buffer of capacity 0, possible only as the first one, stands for the null
pointer. Values are numbers, 0 is `void`. Not modelled: the garbage collector, negative indices, read-only arrays.
-/
namespace Verif.Conc

/-- Contents of a slot; core/kos_array.c:26-32, `TOMBSTONE` and `CLOSED` are special objects. -/
inductive Slot
  | val (v : Nat)
  | tomb
  | closed
  deriving DecidableEq, Repr

/-- What a thread does with one element; `push` is the second half of `KOS_array_push`, which writes the new element. -/
inductive Op
  | read (i : Nat)
  | write (i v : Nat)
  | cas (i old new : Nat)
  | push (i v : Nat)
  deriving DecidableEq, Repr

def Op.index : Op → Nat
  | .read i => i
  | .write i _ => i
  | .cas i _ _ => i
  | .push i _ => i

/-- The operations which change the size of the storage. -/
inductive Grow
  | reserve (n : Nat)
  | resize (n : Nat)
  | push (v : Nat)
  deriving DecidableEq, Repr

/-- Where a thread is in `copy_buf`, core/kos_array.c:166-225; `d` is `in_dst`, `v` is `value`. -/
inductive CopyPc
  /-- about to read `num_slots_open`, line 174 -/
  | start
  /-- about to read `src[i]`, line 183 -/
  | rd (i : Nat) (d : Slot)
  /-- about to compare and swap `dst[i]`, line 190 -/
  | wr (i : Nat) (d v : Slot)
  /-- about to close `src[i]`, line 196 -/
  | cl (i : Nat) (v : Slot)
  /-- about to read `num_slots_open`, line 209 -/
  | chk (i : Nat)
  /-- about to decrement `num_slots_open`, line 213 -/
  | dec (i : Nat)
  /-- about to compare and swap `array->data`, line 222 -/
  | fin
  deriving DecidableEq, Repr

/-- Where a thread is in `KOS_array_reserve`, `resize_storage`, `KOS_array_resize`, `KOS_array_push`; `n` is the capacity asked for. -/
inductive GrowPc
  /-- about to read `data` and its capacity, lines 428, 472, 733 -/
  | begin
  /-- about to read `data` and its capacity in `KOS_array_reserve`, lines 428-429, 438-440 -/
  | check (n : Nat)
  /-- about to allocate, line 373 -/
  | alloc (n : Nat)
  /-- about to read `data`, line 377; the new buffer has capacity `c` -/
  | old (n c : Nat)
  /-- about to set `next` of buffer `k`, lines 381-383 -/
  | link (n c k : Nat)
  /-- about to read `data` after `KOS_array_reserve`, lines 481, 747 -/
  | done
  /-- about to read `size` in `KOS_array_push`, line 740 -/
  | len (k : Nat)
  /-- about to compare and swap `size` in `KOS_array_push`, line 751 -/
  | inc (k len : Nat)
  /-- about to swap `size` in `KOS_array_resize`, line 484 -/
  | swap (k : Nat)
  /-- about to write void into slot `j`, up to the new size `n`, lines 487-494 -/
  | fill (k j n : Nat)
  /-- about to write a tombstone into slot `j`, up to the old size `n`, lines 495-501 -/
  | trunc (k j n : Nat)
  deriving DecidableEq, Repr

/-- What a thread continues with after `copy_buf`. -/
inductive Cont
  | op (o : Op)
  | grow (g : Grow) (n : Nat)
  deriving DecidableEq, Repr

inductive Local
  | idle
  /-- about to read `size`, lines 236, 275, 324 -/
  | size (o : Op)
  /-- about to read `data`, lines 240, 280, 329 -/
  | data (o : Op)
  /-- about to read the slot of buffer `k`, lines 243, 284, 333, 758 -/
  | acc (o : Op) (k : Nat)
  /-- about to read `next` of buffer `k`, lines 252, 292, 341, 761 -/
  | next (o : Op) (k : Nat)
  /-- about to compare and swap the slot of buffer `k`, lines 296, 349, 767 -/
  | swap (o : Op) (k : Nat) (cur : Slot)
  /-- copying buffer `k` to buffer `k + 1` -/
  | copy (c : Cont) (k : Nat) (pc : CopyPc)
  | grow (g : Grow) (pc : GrowPc)
  deriving DecidableEq, Repr

/-- core/kos_object_internal.h:186-192 `KOS_ARRAY_STORAGE`, and the array: `data`, `size`. `last` is the number of the last buffer. -/
structure Mem where
  cap : Nat → Nat
  «open» : Nat → Nat
  mem : Nat → Nat → Slot
  last : Nat
  data : Nat
  size : Nat

/-- `busy` tells which thread is changing the size of the array; it exists only in the model. -/
structure St extends Mem where
  th : Nat → Local
  busy : Option Nat

/-- What is visible from outside: results of finished operations. -/
inductive Ev
  | read (i : Nat) (x : Slot)
  | write (i v : Nat)
  | cas (i old new : Nat) (x : Slot)
  | push (i v : Nat)
  /-- an element equal to void was appended by `resize` -/
  | fill (i : Nat)
  /-- an element was removed by `resize` -/
  | trunc (i : Nat)
  /-- an index is out of range -/
  | range (i : Nat)
  deriving DecidableEq, Repr

/-- Everything which is not determined by the state: what an idle thread begins to do, whether a weak compare-and-swap fails for no reason and
allocation fails, and the capacity of a new buffer, which is rounded up. -/
inductive Choice
  | go
  | fail
  | op (o : Op)
  | grow (g : Grow)
  | cap (c : Nat)
  deriving DecidableEq, Repr

/-- `one`: only one thread at a time changes the size. `up`: the size is never made smaller. -/
structure Rules where
  one : Bool
  up : Bool
  deriving DecidableEq, Repr

inductive Res
  | ok (s : St) (e : Option Ev)
  /-- access outside of a buffer or through a null pointer -/
  | bad
  /-- the thread cannot make such a step -/
  | no

def upd {α : Type} (f : Nat → α) (k : Nat) (x : α) : Nat → α := fun j => if j = k then x else f j

def St.goto (s : St) (t : Nat) (l : Local) : St := { s with th := upd s.th t l }

def St.put (s : St) (k i : Nat) (x : Slot) : St := { s with mem := upd s.mem k (upd (s.mem k) i x) }

/-- The thread has finished its operation. -/
def St.finish (s : St) (t : Nat) : St :=
  { s with th := upd s.th t .idle, busy := if s.busy = some t then none else s.busy }

/-- Next slot, core/kos_array.c:216-219. -/
def nextSlot (s : St) (k i : Nat) : Nat := if i + 1 = s.cap k then 0 else i + 1

/-- What follows after `copy_buf`: lines 294, 343: the same operation in the new buffer; line 438: the loop of `KOS_array_reserve`. -/
def Cont.resume (c : Cont) (k : Nat) : Local :=
  match c with
  | .op o => .acc o (k + 1)
  | .grow g n => .grow g (.check n)

/-- core/kos_array.c:166-225 `copy_buf` -/
def copyStep (s : St) (t : Nat) (c : Cont) (k : Nat) (pc : CopyPc) (ch : Choice) : Res :=
  match pc with
  | .start => .ok (s.goto t (.copy c k (.rd ((s.cap k - s.open k) % s.cap k) .tomb))) none
  | .rd i d =>
    if i < s.cap k then
      if s.mem k i = .closed then .ok (s.goto t (.copy c k (.chk i))) none
      else .ok (s.goto t (.copy c k (.wr i d (s.mem k i)))) none
    else .bad
  | .wr i d v =>
    if i < s.cap (k + 1) then
      if s.mem (k + 1) i = d then .ok ((s.put (k + 1) i v).goto t (.copy c k (.cl i v))) none
      else .ok (s.goto t (.copy c k (.chk i))) none
    else .bad
  | .cl i v =>
    if i < s.cap k then
      if s.mem k i = v ∧ ch ≠ .fail then .ok ((s.put k i .closed).goto t (.copy c k (.dec i))) none
      else .ok (s.goto t (.copy c k (.rd i v))) none
    else .bad
  | .chk i =>
    if s.open k = 0 then .ok (s.goto t (.copy c k .fin)) none
    else .ok (s.goto t (.copy c k (.rd (nextSlot s k i) .tomb))) none
  | .dec i =>
    if s.open k = 1 then .ok ({ s with «open» := upd s.open k (s.open k - 1) }.goto t (.copy c k .fin)) none
    else .ok ({ s with «open» := upd s.open k (s.open k - 1) }.goto t (.copy c k (.rd (nextSlot s k i) .tomb))) none
  | .fin =>
    if s.data = k then .ok ({ s with data := k + 1 }.goto t (c.resume k)) none
    else .ok (s.goto t (c.resume k)) none

/-- The loops of `KOS_array_read`, `KOS_array_write`, `KOS_array_cas`, `KOS_array_push`, lines 242-255, 282-300, 331-353, 756-769:
what is done with the contents of the slot. -/
def look (s : St) (t : Nat) (o : Op) (k : Nat) : Res :=
  match s.mem k o.index, o with
  | .closed, _ => .ok (s.goto t (.next o k)) none
  | .tomb, .push _ _ => .ok (s.goto t (.swap o k .tomb)) none
  | .tomb, _ => .ok (s.finish t) (some (.range o.index))
  | .val v, .read i => .ok (s.finish t) (some (.read i (.val v)))
  | .val v, .cas i old new => if v = old then .ok (s.goto t (.swap o k (.val v))) none else .ok (s.finish t) (some (.cas i old new (.val v)))
  | .val v, _ => .ok (s.goto t (.swap o k (.val v))) none

/-- The value to be written. -/
def Op.value : Op → Nat
  | .read _ => 0
  | .write _ v => v
  | .cas _ _ new => new
  | .push _ v => v

def Op.event (o : Op) (cur : Slot) : Ev :=
  match o with
  | .read i => .read i cur
  | .write i v => .write i v
  | .cas i old new => .cas i old new cur
  | .push i v => .push i v

/-- Capacity to be asked for, lines 428-433, 476-479, 742-745. -/
def growBegin (s : St) (g : Grow) : GrowPc :=
  match g with
  | .reserve n => .check n
  | .resize n => if s.cap s.data < n then .check (max (s.cap s.data * 2) n) else .swap s.data
  | .push _ => .len s.data

/-- core/kos_array.c:362-511, 712-753 -/
def growStep (s : St) (t : Nat) (g : Grow) (pc : GrowPc) (ch : Choice) : Res :=
  match pc with
  | .begin => .ok (s.goto t (.grow g (growBegin s g))) none
  | .check n =>
    if s.cap s.data < n then .ok (s.goto t (.grow g (.alloc n))) none
    else .ok (s.goto t (.grow g .done)) none
  | .alloc n =>
    match ch with
    | .cap c => if n ≤ c then .ok (s.goto t (.grow g (.old n c))) none else .no
    | .fail => .ok (s.finish t) none
    | _ => .no
  | .old n c => .ok (s.goto t (.grow g (.link n c s.data))) none
  | .link n c k =>
    if s.cap k = 0 then
      if s.data = k then
        .ok ({ s with cap := upd s.cap (s.last + 1) c, «open» := upd s.open (s.last + 1) c, last := s.last + 1, data := s.last + 1 }.goto t
          (.grow g (.check n))) none
      else .ok (s.goto t (.grow g (.check n))) none
    else if s.last = k then
      .ok ({ s with cap := upd s.cap (s.last + 1) c, «open» := upd s.open (s.last + 1) c, last := s.last + 1 }.goto t
        (.copy (.grow g n) k .start)) none
    else .ok (s.goto t (.copy (.grow g n) k .start)) none
  | .done =>
    match g with
    | .reserve _ => .ok (s.finish t) none
    | .resize _ => .ok (s.goto t (.grow g (.swap s.data))) none
    | .push _ => .ok (s.goto t (.grow g (.len s.data))) none
  | .len k =>
    if s.cap k ≤ s.size then .ok (s.goto t (.grow g (.check (max (s.cap k * 2) (s.size + 1))))) none
    else .ok (s.goto t (.grow g (.inc k s.size))) none
  | .inc k len =>
    match g with
    | .push v =>
      if s.size = len ∧ ch ≠ .fail then .ok ({ s with size := len + 1 }.goto t (.acc (.push len v) k)) none
      else .ok (s.goto t (.grow g (.len k))) none
    | _ => .no
  | .swap k =>
    match g with
    | .resize n =>
      if s.size < n then .ok ({ s with size := n }.goto t (.grow g (.fill k s.size n))) none
      else if n < s.size then .ok ({ s with size := n }.goto t (.grow g (.trunc k n s.size))) none
      else .ok (s.finish t) none
    | _ => .no
  | .fill k j n =>
    if j < s.cap k then
      if j + 1 = n then .ok ((s.put k j (.val 0)).finish t) (some (.fill j))
      else .ok ((s.put k j (.val 0)).goto t (.grow g (.fill k (j + 1) n))) (some (.fill j))
    else .bad
  | .trunc k j n =>
    if j < s.cap k then
      if j + 1 = n then .ok ((s.put k j .tomb).finish t) (some (.trunc j))
      else .ok ((s.put k j .tomb).goto t (.grow g (.trunc k (j + 1) n))) (some (.trunc j))
    else .bad

/-- May the thread begin to change the size? -/
def allowed (r : Rules) (s : St) (g : Grow) : Bool :=
  (!r.one || s.busy.isNone) &&
  match g with
  | .resize n => !r.up || decide (s.size ≤ n)
  | _ => true

/-- One step of thread `t`. -/
def step (r : Rules) (s : St) (t : Nat) (ch : Choice) : Res :=
  match s.th t with
  | .idle =>
    match ch with
    | .op (.push _ _) => .no
    | .op o => .ok (s.goto t (.size o)) none
    | .grow g => if allowed r s g then .ok ({ s with busy := some t }.goto t (.grow g .begin)) none else .no
    | _ => .no
  | .size o => if o.index < s.size then .ok (s.goto t (.data o)) none else .ok (s.finish t) (some (.range o.index))
  | .data o => .ok (s.goto t (.acc o s.data)) none
  | .acc o k => if o.index < s.cap k then look s t o k else .bad
  | .next o k =>
    if k < s.last then
      match o with
      | .read _ => .ok (s.goto t (.acc o (k + 1))) none
      | .push _ _ => .ok (s.goto t (.acc o (k + 1))) none
      | _ => .ok (s.goto t (.copy (.op o) k .start)) none
    else .bad
  | .swap o k cur =>
    if o.index < s.cap k then
      if s.mem k o.index = cur ∧ ch ≠ .fail then .ok ((s.put k o.index (.val o.value)).finish t) (some (o.event cur))
      else .ok (s.goto t (.acc o k)) none
    else .bad
  | .copy c k pc => copyStep s t c k pc ch
  | .grow g pc => growStep s t g pc ch

/-- A new array with the given elements and capacity; all threads are idle. -/
def fresh (l : List Nat) (c : Nat) : St :=
  ⟨⟨fun k => if k = 0 then c else 0, fun k => if k = 0 then c else 0,
   fun k i => if k = 0 then (match l[i]? with | some v => .val v | none => .tomb) else .tomb, 0, 0, l.length⟩, fun _ => .idle, none⟩

/-- Executions of `n` threads, with the events in order. -/
inductive Run (r : Rules) (n : Nat) : St → List Ev → St → Prop
  | nil (s : St) : Run r n s [] s
  | quiet (s s' s'' : St) (es : List Ev) (t : Nat) (ch : Choice) : t < n → step r s t ch = .ok s' none → Run r n s' es s'' → Run r n s es s''
  | event (s s' s'' : St) (e : Ev) (es : List Ev) (t : Nat) (ch : Choice) :
      t < n → step r s t ch = .ok s' (some e) → Run r n s' es s'' → Run r n s (e :: es) s''

end Verif.Conc
