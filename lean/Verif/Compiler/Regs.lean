/-!
Model of register allocation in the compiler: core/kos_compiler.c:72-268.

Register objects are nodes in memory with `next` and `prev` pointers (0 is null). Each frame (function being compiled) has a list of free registers and a
list of used registers; `unused` is the list of objects left over from finished frames.

A result `none` is a null pointer access, a failed assertion, or a loop which has not ended within the fuel.
-/
namespace Verif.Compiler

/-- Memory of register objects: core/kos_compiler.h:18-23 `KOS_REG`; `num` is the member `reg`. -/
structure RegHeap where
  next : Nat → Nat
  prev : Nat → Nat
  num : Nat → Nat
  tmp : Nat → Bool

def upd {α : Type} (f : Nat → α) (i : Nat) (v : α) : Nat → α := fun x => if x = i then v else f x

/-- Members of `KOS_FRAME`: core/kos_compiler.h:98-120 -/
structure RFrame where
  numRegs : Nat
  free : Nat
  used : Nat

/-- Memory, `program->unused_regs` and the current frame. -/
structure RegState where
  h : RegHeap
  unused : Nat
  f : RFrame

inductive RegOut
  | ok
  | tooMany
  | oom
  deriving DecidableEq

/-- core/kos_compiler.c:72-105 `gen_new_reg`; `ms` are the results of `KOS_mempool_alloc`, which fails after the last one. -/
def genNewReg (w : RegState) (ms : List Nat) : RegOut × RegState × List Nat × Nat :=
  if w.f.numRegs = 255 then (.tooMany, w, ms, 0)
  else if w.unused ≠ 0 then
    let reg := w.unused
    (.ok, ⟨{ w.h with num := upd w.h.num reg w.f.numRegs }, w.h.next reg, { w.f with numRegs := w.f.numRegs + 1 }⟩, ms, reg)
  else
    match ms with
    | [] => (.oom, w, [], 0)
    | reg :: ms => (.ok, ⟨{ w.h with num := upd w.h.num reg w.f.numRegs }, w.unused, { w.f with numRegs := w.f.numRegs + 1 }⟩, ms, reg)

/-- core/kos_compiler.c:107-117 `mark_reg_as_used` -/
def markRegAsUsed (w : RegState) (reg : Nat) : RegState :=
  let h := { w.h with prev := upd w.h.prev reg 0, next := upd w.h.next reg w.f.used }
  let h := if w.f.used ≠ 0 then { h with prev := upd h.prev w.f.used reg } else h
  ⟨h, w.unused, { w.f with used := reg }⟩

/-- core/kos_compiler.c:119-145 `gen_reg`, with `*out_reg` null. -/
def genReg (w : RegState) (ms : List Nat) : RegOut × RegState × Nat :=
  let finish (w : RegState) (reg : Nat) : RegOut × RegState × Nat :=
    let w := if w.f.free = reg then { w with f := { w.f with free := w.h.next reg } } else w
    let w := markRegAsUsed w reg
    (.ok, { w with h := { w.h with tmp := upd w.h.tmp reg true } }, reg)
  if w.f.free = 0 then
    match genNewReg w ms with
    | (.ok, w, _, reg) => finish w reg
    | (e, w, _, _) => (e, w, 0)
  else finish w w.f.free

/-- A pointer of type `KOS_REG **`: `none` is `&frame->free_regs`, `some r` is `&r->next`. -/
def derefLink (w : RegState) : Option Nat → Nat
  | none => w.f.free
  | some r => w.h.next r

def setLink (w : RegState) : Option Nat → Nat → RegState
  | none, v => { w with f := { w.f with free := v } }
  | some r, v => { w with h := { w.h with next := upd w.h.next r v } }

/-- core/kos_compiler.c:159-177: looks for consecutive free registers. -/
def scanFree (h : RegHeap) (n : Nat) : Nat → Option Nat → Nat → Nat → Option (Option Nat × Nat)
  | 0, _, _, _ => none
  | fuel + 1, first, reg, count =>
    let next := h.next reg
    if next = 0 then some (first, count)
    else if h.num next = h.num reg + 1 then
      if count + 1 = n then some (first, count + 1) else scanFree h n fuel first next (count + 1)
    else scanFree h n fuel (some reg) next 1

/-- core/kos_compiler.c:184-192: takes `count` free registers. -/
def takeFree : Nat → RegState → Option Nat → Nat → Option (RegState × List Nat)
  | 0, w, _, _ => some (w, [])
  | count + 1, w, first, reg =>
    if reg = 0 then none
    else
      let next := w.h.next reg
      let w := markRegAsUsed w reg
      let w := setLink w first next
      match takeFree count w first next with
      | none => none
      | some (w, out) => some (w, reg :: out)

/-- core/kos_compiler.c:195-207: adds new registers. -/
def addRegs : Nat → RegState → List Nat → RegOut × RegState × List Nat
  | 0, w, _ => (.ok, w, [])
  | n + 1, w, ms =>
    match genNewReg w ms with
    | (.ok, w, ms, reg) =>
      let w := markRegAsUsed w reg
      let w := { w with h := { w.h with tmp := upd w.h.tmp reg true } }
      match addRegs n w ms with
      | (e, w, out) => (e, w, reg :: out)
    | (e, w, _, _) => (e, w, [])

/-- core/kos_compiler.c:147-210 `gen_reg_range` -/
def genRegRange (w : RegState) (ms : List Nat) (n : Nat) : Option (RegOut × RegState × List Nat) :=
  let found := if w.f.free ≠ 0 then scanFree w.h n 256 none w.f.free 1 else some (none, 0)
  match found with
  | none => none
  | some (first, count) =>
    if count = n ∨ (count ≠ 0 ∧ w.h.num (derefLink w first) + count = w.f.numRegs) then
      match takeFree count w first (derefLink w first) with
      | none => none
      | some (w, out) =>
        match addRegs (n - count) w ms with
        | (e, w, out2) => some (e, w, out ++ out2)
    else some (addRegs n w ms)

/-- core/kos_compiler.c:247-248: the place for a register in the sorted list. -/
def findLink (w : RegState) (reg : Nat) : Nat → Option Nat → Option (Option Nat)
  | 0, _ => none
  | fuel + 1, ptr =>
    let p := derefLink w ptr
    if p ≠ 0 ∧ w.h.num reg > w.h.num p then findLink w reg fuel (some p) else some ptr

/-- core/kos_compiler.c:230-254 `free_reg` -/
def freeReg (w : RegState) (reg : Nat) : Option RegState :=
  if reg = 0 then none
  else if w.h.tmp reg then
    let w := if w.h.prev reg ≠ 0 then { w with h := { w.h with next := upd w.h.next (w.h.prev reg) (w.h.next reg) } }
      else { w with f := { w.f with used := w.h.next reg } }
    let w := if w.h.next reg ≠ 0 then { w with h := { w.h with prev := upd w.h.prev (w.h.next reg) (w.h.prev reg) } } else w
    match findLink w reg 256 none with
    | none => none
    | some ptr =>
      if derefLink w ptr = reg then none
      else
        let w := { w with h := { w.h with next := upd w.h.next reg (derefLink w ptr), prev := upd w.h.prev reg 0 } }
        some (setLink w ptr reg)
  else some w

/-- core/kos_compiler.c:261-262: the last node of a list. -/
def lastReg (h : RegHeap) : Nat → Nat → Option Nat
  | 0, _ => none
  | fuel + 1, reg => if h.next reg ≠ 0 then lastReg h fuel (h.next reg) else some reg

/-- core/kos_compiler.c:255-268 `free_all_regs` -/
def freeAllRegs (h : RegHeap) (unused reg : Nat) : Option (RegHeap × Nat) :=
  if reg ≠ 0 then
    match lastReg h 256 reg with
    | none => none
    | some last => some ({ h with next := upd h.next last unused }, reg)
  else some (h, unused)

/-- All frames: the current one is in `cur`, its parents in `parents`; no frame at all before the first `enter`. `held` are the registers which the
compiler holds, for each frame, with the numbers they had when they were allocated. -/
structure RegProg where
  cur : RegState
  parents : List RFrame
  held : List (List (Nat × Nat))

/-- What the compiler does with registers. -/
inductive RegEv
  /-- `gen_reg` -/
  | one (ms : List Nat)
  /-- `gen_reg_range` -/
  | range (n : Nat) (ms : List Nat)
  /-- `free_reg` -/
  | free (reg : Nat)
  /-- A variable's register is not temporary until the end of its scope: core/kos_compiler.c:314, 1282 and others. -/
  | setTmp (reg : Nat) (b : Bool)
  /-- A nested function: core/kos_compiler.c:5686 -/
  | enter
  /-- The end of a function: core/kos_compiler.c:5921-5929 -/
  | leave

/-- Adds registers to those held in the current frame. -/
def hold (h : RegHeap) (regs : List Nat) : List (List (Nat × Nat)) → List (List (Nat × Nat))
  | [] => []
  | l :: ls => (regs.map (fun r => (r, h.num r)) ++ l) :: ls

/-- Removes a register. -/
def unhold (reg : Nat) : List (List (Nat × Nat)) → List (List (Nat × Nat))
  | [] => []
  | l :: ls => l.filter (fun p => p.1 ≠ reg) :: ls

/-- One step; compilation ends on an error. -/
def regStep (p : RegProg) : RegEv → Option (RegOut × RegProg)
  | .one ms =>
    match genReg p.cur ms with
    | (.ok, w, reg) => some (.ok, ⟨w, p.parents, hold w.h [reg] p.held⟩)
    | (e, w, _) => some (e, ⟨w, p.parents, p.held⟩)
  | .range n ms =>
    match genRegRange p.cur ms n with
    | none => none
    | some (e, w, regs) => some (e, ⟨w, p.parents, hold w.h regs p.held⟩)
  | .free reg =>
    match freeReg p.cur reg with
    | none => none
    | some w => some (.ok, ⟨w, p.parents, if p.cur.h.tmp reg then unhold reg p.held else p.held⟩)
  | .setTmp reg b => some (.ok, { p with cur := { p.cur with h := { p.cur.h with tmp := upd p.cur.h.tmp reg b } } })
  | .enter => some (.ok, ⟨{ p.cur with f := ⟨0, 0, 0⟩ }, p.cur.f :: p.parents, [] :: p.held⟩)
  | .leave =>
    match p.parents with
    | [] => none
    | f :: parents =>
      match freeAllRegs p.cur.h p.cur.unused p.cur.f.used with
      | none => none
      | some (h, unused) =>
        match freeAllRegs h unused p.cur.f.free with
        | none => none
        | some (h, unused) => some (.ok, ⟨⟨h, unused, f⟩, parents, p.held.drop 1⟩)

/-- A history; it ends with the first error. -/
def regRun (p : RegProg) : List RegEv → Option (RegOut × RegProg)
  | [] => some (.ok, p)
  | e :: es =>
    match regStep p e with
    | none => none
    | some (.ok, p) => regRun p es
    | some (e, p) => some (e, p)

/-- The start: the frame of the module, without registers. -/
def regInit (h : RegHeap) : RegProg := ⟨⟨h, 0, ⟨0, 0, 0⟩⟩, [], [[]]⟩

end Verif.Compiler
