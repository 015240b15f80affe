import Verif.Gc.Heap

/-!
# What a collection must preserve

Stated on the heap alone, without the functions of the collector: which objects can be
reached from the roots, what it means that a heap is well formed, and what it means that a
heap holds the same objects as another one, at other places.
-/

namespace Verif.Gc

/-- Every reference that an object holds. -/
def Body.refs : Body → List Ref
  | .integer _ | .float _ | .opaque _ | .string _ | .bufStore _ _ | .bufExt _ _ => []
  | .strRef r _ _ => [r]
  | .object pr pt _ => [pr, pt]
  | .array d _ => [d]
  | .buffer d _ => [d]
  | .function bc m nm cl df am fr _ => [bc, m, nm, cl, df, am, fr]
  | .cls bc m nm cl df am pt pr _ => [bc, m, nm, cl, df, am, pt, pr]
  | .objStore items nt _ => items.flatMap (fun kv => [kv.1, kv.2]) ++ [nt]
  | .arrStore buf nx _ => buf ++ [nx]
  | .dynProp g s => [g, s]
  | .iterator o po kt rk lk lv _ => [o, po, kt, rk, lk, lv]
  | .module nm pa co gn gl mn pr _ _ => [nm, pa, co, gn, gl, mn, pr]
  | .stack buf _ => buf
  | .tracker o => [o]

/-- The object with every reference replaced. -/
def Body.map (f : Ref → Ref) : Body → Body
  | .strRef r p d => .strRef (f r) p d
  | .object pr pt x => .object (f pr) (f pt) x
  | .array d n => .array (f d) n
  | .buffer d n => .buffer (f d) n
  | .function bc m nm cl df am fr o =>
    .function (f bc) (f m) (f nm) (f cl) (f df) (f am) (f fr) o
  | .cls bc m nm cl df am pt pr o =>
    .cls (f bc) (f m) (f nm) (f cl) (f df) (f am) (f pt) (f pr) o
  | .objStore items nt d => .objStore (items.map fun kv => (f kv.1, f kv.2)) (f nt) d
  | .arrStore buf nx d => .arrStore (buf.map f) (f nx) d
  | .dynProp g s => .dynProp (f g) (f s)
  | .iterator o po kt rk lk lv d => .iterator (f o) (f po) (f kt) (f rk) (f lk) (f lv) d
  | .module nm pa co gn gl mn pr x d =>
    .module (f nm) (f pa) (f co) (f gn) (f gl) (f mn) (f pr) x d
  | .stack buf d => .stack (buf.map f) d
  | .tracker o => .tracker (f o)
  | b => b

/-- Object `b` at `self` and object `b'` at `self'` are the same up to the places of objects:
references agree through `f`, a pointer into a string stays at the same distance from that
string, a pointer to an object's own bytes stays at the same distance from the object. -/
def SameBody (addr : Ref → Int) (f : Ref → Ref) (self self' : Ref) : Body → Body → Prop
  | .strRef r p d, b' => ∃ p', b' = .strRef (f r) p' d ∧ p' - addr (f r) = p - addr r
  | .bufStore p d, b' => ∃ p', b' = .bufStore p' d ∧ p' - addr self' = p - addr self
  | b, b' => b' = b.map f

def threadRefs : Option Thread → List Ref
  | none => []
  | some t => [t.func, t.this, t.args, t.retval, t.exception]

def ctxRefs (c : Ctx) : List Ref := [c.exception, c.stack] ++ c.locals ++ c.ulocals

/-- All roots of an instance. -/
def Inst.refs (i : Inst) : List Ref :=
  let t := i.protos
  [t.object, t.number, t.integer, t.float, t.string, t.boolean, t.array, t.buffer, t.function,
    t.cls, t.generator, t.exception, t.generatorEnd, t.panic, t.ctrlC, t.thread, t.module,
    i.mods.searchPaths, i.mods.moduleNames, i.mods.modules, i.mods.initModule,
    i.mods.moduleInits, i.args]
  ++ i.threads.flatMap threadRefs
  ++ i.ctxs.flatMap ctxRefs

/-- All roots but the prototypes of the exceptions "panic" and "ctrl-c". -/
def Inst.kept (i : Inst) : List Ref :=
  let t := i.protos
  [t.object, t.number, t.integer, t.float, t.string, t.boolean, t.array, t.buffer, t.function,
    t.cls, t.generator, t.exception, t.generatorEnd, t.thread, t.module,
    i.mods.searchPaths, i.mods.moduleNames, i.mods.modules, i.mods.initModule,
    i.mods.moduleInits, i.args]
  ++ i.threads.flatMap threadRefs
  ++ i.ctxs.flatMap ctxRefs

/-- The roots with every reference replaced. -/
def Protos.move (f : Ref → Ref) (t : Protos) : Protos :=
  ⟨f t.object, f t.number, f t.integer, f t.float, f t.string, f t.boolean, f t.array,
    f t.buffer, f t.function, f t.cls, f t.generator, f t.exception, f t.generatorEnd,
    f t.panic, f t.ctrlC, f t.thread, f t.module⟩

def Mods.move (f : Ref → Ref) (m : Mods) : Mods :=
  ⟨f m.searchPaths, f m.moduleNames, f m.modules, f m.initModule, f m.moduleInits⟩

def Thread.move (f : Ref → Ref) (t : Thread) : Thread :=
  ⟨f t.func, f t.this, f t.args, f t.retval, f t.exception⟩

def Ctx.move (f : Ref → Ref) (c : Ctx) : Ctx :=
  ⟨f c.exception, f c.stack, c.locals.map f, c.ulocals.map f⟩

def Inst.move (f : Ref → Ref) (i : Inst) : Inst :=
  ⟨f i.args, i.protos.move f, i.mods.move f, i.threads.map (·.map (·.move f)),
    i.ctxs.map (·.move f)⟩

/-- The prototypes of "panic" and "ctrl-c" are those of another instance. -/
def Inst.keepTwo (i j : Inst) : Inst :=
  { i with protos := { i.protos with panic := j.protos.panic, ctrlC := j.protos.ctrlC } }

/-- Objects that can be reached. -/
inductive Reach (h : Heap) (roots : List Ref) : Ref → Prop
  | root {r : Ref} : r ∈ roots → Reach h roots r
  | step {r r' : Ref} {b : Body} :
      Reach h roots r → bodyAt h r = some b → r' ∈ b.refs → Reach h roots r'

/-! ## Well formed heaps -/

/-- The slots from `s` to `e` of a page are objects one after another. -/
inductive Tile (c : Nat → Option Obj) : Nat → Nat → Prop
  | nil (s : Nat) : Tile c s s
  | cons {s n e : Nat} {b : Body} :
      c s = some ⟨.own n, b⟩ → 0 < n → Tile c (s + n) e → Tile c s e

/-- Pages with objects. -/
def Heap.inUse (h : Heap) (p : Nat) : Prop := p ∈ h.used ∨ h.cur = some p

/-- An object starts at slot `s` of page `p`. -/
def IsObj (h : Heap) (p s : Nat) : Prop := h.inUse p ∧ s < h.num p ∧ Tile (h.cell p) 0 s

/-- Every page is in one list, once; the pages in use consist of objects, the free ones are
empty. -/
structure PagesOk (cfg : Cfg) (h : Heap) : Prop where
  nodup : (h.cur.toList ++ h.used ++ h.free).Nodup
  lt : ∀ p ∈ h.cur.toList ++ h.used ++ h.free, p < h.next
  free : ∀ p ∈ h.free, h.num p = 0
  tiled : ∀ p, h.inUse p → h.num p ≤ cfg.spp ∧ Tile (h.cell p) 0 (h.num p)

/-- A reference leads to an object, unless it is a number, a static object or KOS_BADPTR.  A
huge object has a tracker on the heap, and each knows the other. -/
def Valid (h : Heap) : Ref → Prop
  | .val _ => True
  | .bad => True
  | .heap p s => IsObj h p s
  | .huge k => ∃ x p s n, h.huge k = some x ∧ x.back = .heap p s ∧ x.body.isTracker = false ∧
      IsObj h p s ∧ h.cell p s = some ⟨.own n, .tracker (.huge k)⟩

/-- A tracker has no object, or a huge object which knows it. -/
def TrackersOk (h : Heap) : Prop :=
  ∀ p s n r, IsObj h p s → h.cell p s = some ⟨.own n, .tracker r⟩ →
    r = .bad ∨ ∃ k x, r = .huge k ∧ h.huge k = some x ∧ x.back = .heap p s ∧
      x.body.isTracker = false

def Body.isStorage : Body → Prop
  | .bufStore _ _ | .bufExt _ _ => True
  | _ => False

/-- What a collection needs to find, and what it leaves behind. -/
structure Wf (cfg : Cfg) (h : Heap) (roots : List Ref) : Prop where
  pages : PagesOk cfg h
  valid : ∀ r, Reach h roots r → Valid h r
  trackers : TrackersOk h
  /-- the data of a buffer is a buffer storage -/
  buffers : ∀ r d n, Reach h roots r → bodyAt h r = some (.buffer d n) →
    ∀ b, bodyAt h d = some b → b.isStorage
  /-- a buffer storage with its own bytes points to them -/
  stores : ∀ r p d, Reach h roots r → bodyAt h r = some (.bufStore p d) →
    p = cfg.addr r + cfg.off

/-- How deep the parts of an object nest which belong to the object alone. -/
def Body.depth : Body → Nat
  | .object .. | .array .. | .cls .. => 1
  | .dynProp .. => 2
  | .module .. => 3
  | _ => 0

/-- The parts of an object which belong to the object alone: its table of properties, the
storage of an array, the functions of a property, the parts of a module. -/
def Body.parts : Body → List Ref
  | .object pr _ _ => [pr]
  | .array d _ => [d]
  | .cls _ _ _ _ _ _ _ pr _ => [pr]
  | .dynProp g s => [g, s]
  | .module nm pa co gn gl mn pr _ _ => [nm, pa, co, gn, gl, mn, pr]
  | _ => []

/-- These parts are of the right kinds: tables and storages have no parts, functions at most
tables, and no part of a module is a module. -/
def Shaped (h : Heap) (roots : List Ref) : Prop :=
  ∀ r b, Reach h roots r → bodyAt h r = some b → ∀ r' ∈ b.parts, ∀ b', bodyAt h r' = some b' →
    b'.isTracker = false ∧ b'.depth < b.depth

/-! ## Same objects, other places -/

/-- What `f` says about references which are no objects on the heap. -/
structure Moves (f : Ref → Ref) : Prop where
  val : ∀ v, f (.val v) = .val v
  bad : f .bad = .bad
  huge : ∀ k, f (.huge k) = .huge k
  heap : ∀ p s, ∃ q t, f (.heap p s) = .heap q t

/-- Whatever can be reached from `roots` in `h` can be reached in `h'` from the roots moved
by `f`, with equal contents, and no two objects have become one. -/
structure Preserved (cfg : Cfg) (f : Ref → Ref) (h h' : Heap) (roots : List Ref) : Prop where
  moves : Moves f
  body : ∀ r b, Reach h roots r → bodyAt h r = some b →
    ∃ b', bodyAt h' (f r) = some b' ∧ SameBody cfg.addr f r (f r) b b'
  inj : ∀ r r', Reach h roots r → Reach h roots r' → f r = f r' → r = r'

/-- Whatever is left in `h'`, but for opaque objects, could be reached from `roots` in `h`, or is
the tracker of a huge object which could be reached. -/
def Exact (f : Ref → Ref) (h h' : Heap) (roots : List Ref) : Prop :=
  ∀ x y n b, IsObj h' x y → h'.cell x y = some ⟨.own n, b⟩ →
    b = .opaque 0 ∨ (∃ p s, Reach h roots (.heap p s) ∧ f (.heap p s) = .heap x y) ∨
      ∃ k, Reach h roots (.huge k) ∧ b = .tracker (.huge k)

/-! ## Finalizers -/

/-- The native function to be called when an object goes away. -/
def Body.fin : Body → Option Nat
  | .object _ _ f => f
  | .bufExt _ f => f
  | .module _ _ _ _ _ _ _ f _ => f
  | _ => none

def Body.isModule : Body → Bool
  | .module .. => true
  | _ => false

/-- Function `f` is called for object `r`: it cannot be reached and has this function. -/
def Due (h : Heap) (roots : List Ref) (r : Ref) (f : Nat) : Prop :=
  Valid h r ∧ ¬ Reach h roots r ∧ ∃ b, bodyAt h r = some b ∧ b.fin = some f

/-- No module on the heap which cannot be reached has a finalizer. -/
def NoModule (h : Heap) (roots : List Ref) : Prop :=
  ∀ p s n b, IsObj h p s → h.cell p s = some ⟨.own n, b⟩ → b.isModule = true →
    ¬ Reach h roots (.heap p s) → b.fin = none

end Verif.Gc
