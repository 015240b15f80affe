/-
  What holds in all states: every reference to a thread is somebody's.
-/
import Verif.Join.Spec

namespace Verif.Join

/-- The place of a thread in the table and who removes it: stages in their order. -/
inductive Sl
  | unborn | new | made | free | claimed | os | late | rem | cut | num | off | gone
deriving DecidableEq

/-- The reference which the thread object has. -/
inductive Ob
  | none | pre | mine | obj | taken | last | gone
deriving DecidableEq

/-- The reference of kos_join_finished_threads. -/
inductive Cl
  | none | cas | ext | gone
deriving DecidableEq

/-- What a thread at `p` does with the place of thread `t`. -/
@[grind] def slView (p : Pc) (t : Nat) : Option Sl :=
  match p with
  | .cSlot u => if u = t then some .new else none
  | .cCreate u => if u = t then some .made else none
  | .fRef u _ | .jSelf u _ | .jOs u _ => if u = t then some .claimed else none
  | .jWait u _ | .jRes u _ => if u = t then some .os else none
  | .jFlag u _ => if u = t then some .late else none
  | .rIdx u _ => if u = t then some .rem else none
  | .rSlot u _ _ => if u = t then some .cut else none
  | .rNum u _ => if u = t then some .num else none
  | .rRel u _ => if u = t then some .off else none
  | _ => none

/-- The call of kos_thread_join or remove_thread which a thread at `p` is in. -/
@[grind] def byOf (p : Pc) : Option (Nat × By) :=
  match p with
  | .jSelf t k | .jOs t k | .jWait t k | .jRes t k | .jFlag t k | .rIdx t k | .rSlot t _ k | .rNum t k | .rRel t k => some (t, k)
  | _ => none

@[grind] def obView (p : Pc) (t : Nat) : Option Ob :=
  match p with
  | .cRef u => if u = t then some .pre else none
  | .cPriv u => if u = t then some .mine else none
  | .dFlag u _ => if u = t then some .taken else none
  | .dRel u _ => if u = t then some .last else none
  | .jSelf u .wait | .jOs u .wait | .jWait u .wait | .jRes u .wait | .jFlag u .wait | .rIdx u .wait | .rSlot u _ .wait
  | .rNum u .wait | .rRel u .wait => if u = t then some .taken else none
  | _ => none

@[grind] def clView (p : Pc) (t : Nat) : Option Cl :=
  match p with
  | .fRef u _ => if u = t then some .cas else none
  | .fRel u _ => if u = t then some .ext else none
  | .jSelf u (.scan _) | .jOs u (.scan _) | .jWait u (.scan _) | .jRes u (.scan _) | .jFlag u (.scan _) | .rIdx u (.scan _)
  | .rSlot u _ (.scan _) | .rNum u (.scan _) | .rRel u (.scan _) => if u = t then some .ext else none
  | _ => none

@[grind] def Sl.held : Sl → Nat
  | .unborn | .gone => 0
  | _ => 1
@[grind] def Ob.held : Ob → Nat
  | .mine | .obj | .taken | .last => 1
  | _ => 0
@[grind] def Cl.held : Cl → Nat
  | .ext => 1
  | _ => 0

/-- It is in the table. -/
@[grind] def Sl.inTab : Sl → Bool
  | .made | .free | .claimed | .os | .late | .rem | .cut => true
  | _ => false
/-- Its index is known. -/
@[grind] def Sl.hasIdx : Sl → Bool
  | .made | .free | .claimed | .os | .late | .rem => true
  | _ => false
/-- It runs, or has ended and was not waited for. -/
@[grind] def Sl.runs : Sl → Bool
  | .free | .claimed | .os => true
  | _ => false
/-- It has not started. -/
@[grind] def Sl.early : Sl → Bool
  | .unborn | .new | .made => true
  | _ => false
/-- Somebody has called pthread_join. -/
@[grind] def Sl.waited : Sl → Bool
  | .os | .late | .rem | .cut | .num | .off | .gone => true
  | _ => false
/-- JOINED may be set. -/
@[grind] def Sl.joined : Sl → Bool
  | .rem | .cut | .num | .off | .gone => true
  | _ => false
/-- It belongs to nobody. -/
@[grind] def Sl.nobody : Sl → Bool
  | .unborn | .free | .gone => true
  | _ => false
@[grind] def Sl.counted : Sl → Bool
  | .made | .free | .claimed | .os | .late | .rem | .cut | .num => true
  | _ => false
@[grind] def Ob.nobody : Ob → Bool
  | .none | .obj | .gone => true
  | _ => false
/-- There is no thread object in the program any more, or it has no pointer. -/
@[grind] def Ob.past : Ob → Bool
  | .taken | .last | .gone => true
  | _ => false
@[grind] def Ob.disowned : Ob → Bool
  | .last | .gone => true
  | _ => false
@[grind] def Cl.nobody : Cl → Bool
  | .none | .gone => true
  | _ => false

/-- Who owns what. -/
structure G where
  sl : Nat → Sl
  slOwn : Nat → Option Nat
  ob : Nat → Ob
  obOwn : Nat → Option Nat
  cl : Nat → Cl
  clOwn : Nat → Option Nat
  pos : Nat → Nat
  counted : List Nat

/-- What a thread is, as far as others need to know. -/
inductive Cls
  | none | live | out (r : Result) | flag | unreg | dead
deriving DecidableEq

@[grind] def cls : Pc → Cls
  | .none => .none
  | .tOut r => .out r
  | .tFlag => .flag
  | .tUnreg => .unreg
  | .dead => .dead
  | _ => .live

/-- `own t` is the thread which has `t` in a view, and `st t` is what it sees. -/
structure Own {α : Type} (view : Pc → Nat → Option α) (nobody : α → Bool) (pc : Nat → Pc) (own : Nat → Option Nat)
    (st : Nat → α) : Prop where
  o1 : ∀ a t x, view (pc a) t = some x → own t = some a ∧ st t = x
  o2 : ∀ a t, own t = some a → view (pc a) t = some (st t)
  o3 : ∀ t, own t = none → nobody (st t) = true

/-- The main thread is behind the beginning of KOS_instance_destroy. -/
def ending (p : Pc) : Bool :=
  match p with
  | .fNum true | .destroy | .dFlag _ true | .dRel _ true => true
  | _ => match scanOf p with
    | some c => c.all
    | none => false

/-- It is behind kos_join_finished_threads. -/
def over (p : Pc) : Bool :=
  match p with
  | .destroy | .dFlag _ true | .dRel _ true => true
  | _ => false

/-- All threads have finished, and the main thread ends the program. -/
def Quiet (pc : Nat → Pc) : Prop := ending (pc 0) = true ∧ ∀ t, t ≠ 0 → finished (pc t) = true

/-- Slots which kos_join_finished_threads has passed. -/
def passed (p : Pc) : Nat :=
  match p with
  | .fNext c => c.i + 1
  | p => match scanOf p with
    | some c => c.i
    | none => 0

/-- A thread, by itself. -/
structure TI (t : Nat) (c : Cls) (x : Sl) (y : Ob) (z : Cl) (al : Bool) (fl : Flags) (rf : Nat) (ix : Option Nat)
    (ps : Nat) (wt pr oj : Bool) : Prop where
  main : t = 0 → x = .unborn ∧ y = .none ∧ z = .none
  alive : al = true ↔ x.held + y.held + z.held ≠ 0
  ref : al = true → rf = x.held + y.held + z.held
  idx : ix = if x.hasIdx then some ps else none
  finished : fl.finished = true ↔ c = .unreg ∨ c = .dead
  disowned : fl.disowned = y.disowned
  joining : fl.joining = true ↔ z ≠ .none
  joined : fl.joined = true → x.joined = true ∧ c = .dead
  waited : wt = true → x.waited = true
  priv : pr = true ↔ y = .obj
  obj : oj = true → y = .obj ∨ y.past = true
  early : t ≠ 0 → x.early = true → c = .none
  runs : x.runs = true → c ≠ .none
  ended : x.early = false → x.runs = false → c = .none ∨ c = .dead
  create : x.early = true → y = .none ∧ z = .none
  gone : x = .gone → y = .none ∨ y.past = true ∨ z ≠ .none
  clgone : z = .gone → x = .gone

structure Table (max : Nat) (slot : Nat → Option Nat) (n : Int) (sl : Nat → Sl) (ps : Nat → Nat) (l : List Nat) : Prop where
  tab : ∀ t j, slot j = some t ↔ (sl t).inTab = true ∧ ps t = j
  pos : ∀ t, (sl t).inTab = true → ps t < max
  count : ∀ t, t ∈ l ↔ (sl t).counted = true
  nodup : l.Nodup
  num : n = l.length

def Sc (b : Nat) (c : Scan) : Prop := (c.all = true → b = 0) ∧ (c.rest = true → c.all = true)

def ByJ (g : G) (b t : Nat) : By → Prop
  | .create => False
  | .wait => True
  | .scan c => Sc b c ∧ g.pos t = c.i

def ByR (g : G) (b t : Nat) : By → Prop
  | .create => g.ob t = .none ∧ g.cl t = .none
  | .wait => True
  | .scan c => Sc b c ∧ g.pos t = c.i

def ByO (s : S) (g : G) (b t : Nat) : By → Prop
  | .create => g.ob t = .none ∧ g.cl t = .none
  | .wait => True
  | .scan c => Sc b c ∧ (c.all = true → s.slot c.i = none)

/-- Thread `b`, where it is. -/
def PA (s : S) (g : G) (b : Nat) : Pc → Prop
  | .run | .cSlot _ | .cCreate _ | .cRef _ | .cPriv _ | .wCheck _ => True
  | .none | .start | .tOut _ | .tFlag | .tUnreg | .dead => b ≠ 0
  | .wSwap t => b ≠ t ∨ (g.ob t).past = true
  | .jSelf t k => b ≠ t ∧ ByJ g b t k
  | .jOs t k | .jWait t k => ByJ g b t k
  | .jRes t k | .jFlag t k => s.pc t = .dead ∧ ByJ g b t k
  | .rIdx t k => ByR g b t k
  | .rSlot t i k => g.pos t = i ∧ ByR g b t k
  | .rNum t k | .rRel t k => ByO s g b t k
  | .dFlag _ e | .dRel _ e => e = true → b = 0
  | .fBegin | .destroy => b = 0
  | .fNum all => all = true → b = 0
  | .fLook c | .fNext c => Sc b c
  | .fCas t f c => Sc b c ∧ s.mutex = some b ∧ s.slot c.i = some t ∧ f.joining = false ∧ joinable c f = true
  | .fRef t c => Sc b c ∧ s.mutex = some b ∧ g.pos t = c.i
  | .fRel t c => Sc b c ∧ g.sl t = .gone ∧ (c.all = true → s.slot c.i = none)

/-- Results. -/
structure Log (cl : Nat → Cls) (o : Nat → Option Result) (log : List Event) (sl : Nat → Sl) : Prop where
  out : ∀ t, cl t = .flag ∨ cl t = .unreg ∨ cl t = .dead → ∃ r, o t = some r ∧ .gave t r ∈ log
  outs : ∀ t r, cl t = .out r → .gave t r ∈ log
  gave : ∀ t r, .gave t r ∈ log → cl t ≠ .none ∧ cl t ≠ .live
  got : ∀ a t r, .got a t r ∈ log → (sl t).waited = true ∧ sl t ≠ .os ∧ .gave t r ∈ log
  gaveOnce : (log.filterMap gaver).Nodup
  gotOnce : (log.filterMap giver).Nodup

/-- The end of the program. -/
structure End (s : S) (g : G) : Prop where
  claim : ∀ t b, g.clOwn t = some b → b ≠ 0 → cls (s.pc t) = .unreg ∨ cls (s.pc t) = .dead
  claimed : ∀ t, g.cl t ≠ .none → (g.ob t).disowned = true ∨ Quiet s.pc
  closed : ending (s.pc 0) = true → s.canCreate = false
  seen : ∀ c, scanOf (s.pc 0) = some c → c.all = true → c.np = 0 → ∀ j t, j < passed (s.pc 0) → s.slot j = some t →
    (cls (s.pc t) = .unreg ∨ cls (s.pc t) = .dead) ∧ g.slOwn t ≠ none
  over : over (s.pc 0) = true → ∀ j, s.slot j = none

structure Inv (max : Nat) (s : S) (g : G) : Prop where
  sl : Own slView Sl.nobody s.pc g.slOwn g.sl
  ob : Own obView Ob.nobody s.pc g.obOwn g.ob
  cl : Own clView Cl.nobody s.pc g.clOwn g.cl
  pa : ∀ b, PA s g b (s.pc b)
  ti : ∀ t, TI t (cls (s.pc t)) (g.sl t) (g.ob t) (g.cl t) (s.alive t) (s.flags t) (s.ref t) (s.idx t) (g.pos t)
    (s.waited t) (s.priv t) (s.obj t)
  tb : Table max s.slot s.num g.sl g.pos g.counted
  lg : Log (fun t => cls (s.pc t)) s.out s.log g.sl
  en : End s g
  fresh : ∀ t, s.next ≤ t → g.sl t = .unborn ∧ g.ob t = .none ∧ g.cl t = .none ∧ s.pc t = .none
  next : 0 < s.next
  calm : ¬ Hasty s

end Verif.Join
