import Verif.Ctl.Lang

/-
Instructions which the compiler generates for control flow, and how the virtual machine runs them: core/kos_vm.c.

An instruction has length 1; offsets are positions in the list.  Jump instructions refer to an entry in the compiler's list of jumps,
whose target is written later (core/kos_compiler.c:1006-1057); C30 is about how the offsets are written.
-/
namespace Verif.Ctl

inductive Instr
  /-- The code of expression `i`, with its value in register `dst`; `env` are the registers of variables of `catch` clauses. -/
  | eval (i dst : Nat) (env : List Nat)
  /-- JUMP -/
  | jmp (e : Nat)
  /-- JUMP.COND, JUMP.NOT.COND -/
  | jcond (want : Bool) (r e : Nat)
  /-- CATCH, CANCEL -/
  | catch (r e : Nat)
  | cancel
  | throw (r : Nat)
  | ret (r : Nat)
  | move (dst src : Nat)
  /-- LOAD.VOID -/
  | void (dst : Nat)
  /-- NEXT.JUMP, and what follows it at the start of the loop. -/
  | next (j : Nat) (env : List Nat) (e : Nat)
  /-- The code of expression of case `i`, and CMP.EQ with the value in register `r`. -/
  | case (i r dst : Nat) (env : List Nat)
  deriving DecidableEq, Repr

structure Prog where
  code : List Instr
  /-- Targets of jump entries. -/
  tgt  : Nat → Option Nat

variable {σ V : Type}

structure Cfg (σ V : Type) where
  pc   : Nat
  regs : Nat → V
  /-- `catch_info` of the stack frame: offset and register. -/
  hnd  : Option (Nat × Nat)
  mem  : σ

inductive Next (σ V : Type)
  | run (c : Cfg σ V)
  | ret (v : V) (s : σ)
  | thr (v : V) (s : σ)
  /-- No such instruction, or a jump without a target. -/
  | stuck

def upd (f : Nat → V) (r : Nat) (v : V) : Nat → V := fun q => if q = r then v else f q

/-- core/kos_vm.c:3625-3657: go to the handler, if there is one. -/
def raise (S : Sem σ V) (v : V) (c : Cfg σ V) (s : σ) : Next σ V :=
  match c.hnd with
  | none => .thr (S.wrap v) s
  | some (t, r) => .run ⟨t, upd c.regs r (S.wrap v), none, s⟩

def goto (P : Prog) (e : Nat) (c : Cfg σ V) : Next σ V :=
  match P.tgt e with
  | some t => .run { c with pc := t }
  | none => .stuck

def step (S : Sem σ V) (P : Prog) (c : Cfg σ V) : Next σ V :=
  match P.code[c.pc]? with
  | none => .stuck
  | some (.eval i dst env) =>
    match S.expr i (env.map c.regs) c.mem with
    | .ok v s => .run ⟨c.pc + 1, upd c.regs dst v, c.hnd, s⟩
    | .exn v s => raise S v c s
  | some (.jmp e) => goto P e c
  | some (.jcond want r e) => if S.truthy (c.regs r) = want then goto P e c else .run { c with pc := c.pc + 1 }
  | some (.catch r e) =>
    match P.tgt e with
    | some t => .run { c with pc := c.pc + 1, hnd := some (t, r) }
    | none => .stuck
  | some .cancel => .run { c with pc := c.pc + 1, hnd := none }
  | some (.throw r) => raise S (c.regs r) c c.mem
  | some (.ret r) => .ret (c.regs r) c.mem
  | some (.move dst src) => .run { c with pc := c.pc + 1, regs := upd c.regs dst (c.regs src) }
  | some (.void dst) => .run { c with pc := c.pc + 1, regs := upd c.regs dst S.void }
  | some (.next j env e) =>
    match S.next j (env.map c.regs) c.mem with
    | .ok true s => goto P e { c with mem := s }
    | .ok false s => .run { c with pc := c.pc + 1, mem := s }
    | .exn v s => raise S v c s
  | some (.case i r dst env) =>
    match S.same i (env.map c.regs) (c.regs r) c.mem with
    | .ok b s => .run ⟨c.pc + 1, upd c.regs dst (S.ofBool b), c.hnd, s⟩
    | .exn v s => raise S v c s

/-- `k` steps. -/
inductive Reach (S : Sem σ V) (P : Prog) : Nat → Cfg σ V → Cfg σ V → Prop
  | refl (c) : Reach S P 0 c c
  | cons {k c c' c''} : step S P c = .run c' → Reach S P k c' c'' → Reach S P (k + 1) c c''

/-- The machine stops with the result `r`. -/
def Halts (S : Sem σ V) (P : Prog) (c : Cfg σ V) (r : Next σ V) : Prop := ∃ k c', Reach S P k c c' ∧ step S P c' = r

end Verif.Ctl
