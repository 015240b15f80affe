/-
  Model of the part of the optimizer which decides how functions are loaded:
  core/kos_compiler_optim.c and `gen_function` of core/kos_compiler.c.

  A function literal is compiled to LOAD.FUN, which makes a new function object
  each time it is executed, or to LOAD.CONST, which always gives the same
  object.  In both cases the scopes of the outer functions are attached to the
  object by the instructions BIND and BIND.SELF which follow.  A use of a
  constant variable which holds a function may be replaced by LOAD.CONST
  (`node->is_const_fun`), then the variable is not used at all.

  The decisions depend on two counters of each function (`KOS_FRAME`):
  `num_binds`, how many times the function or functions inside of it use
  variables of outer functions, and `num_self_refs`, how many of these uses are
  "self-references".

  Simplified: what is removed or folded by other optimizations (dead code,
  constants, variables which are never read) is not modelled; `num_reads` and
  `type` of variables are not modelled.
-/
import Verif.Clos.Ast

namespace Verif.Clos

/-- What the optimizer keeps in variables, functions and nodes.
    kos_compiler.h 46-63 (KOS_VAR), 103-128 (KOS_FRAME), kos_ast.h (KOS_AST_NODE). -/
structure St where
  /-- `node->is_const_fun` of uses of variables -/
  flag : Nat → Bool
  /-- `var->value`, if it is a function literal -/
  value : Nat → Option Nat
  /-- `var->is_const` -/
  isConst : Nat → Bool
  /-- `var->num_assignments` -/
  assigns : Nat → Nat
  /-- `frame->num_binds` -/
  binds : Nat → Nat
  /-- `frame->num_self_refs` -/
  selfs : Nat → Nat
  /-- `frame->num_binds_prev` -/
  prev : Nat → Nat
  /-- `frame->num_def_used` -/
  defs : Nat → Nat
  /-- `frame->is_open` -/
  opn : Nat → Bool
  /-- `program->num_optimizations` -/
  opts : Nat

/-- State after `kos_compiler_process_vars`: everything is cleared by `memset`,
    `num_binds_prev` and `num_def_used` start at 1.
    kos_compiler_vars.c 78-102 (alloc_var), 128-174 (push_scope). -/
def St.init : St where
  flag := fun _ => false
  value := fun _ => none
  isConst := fun _ => false
  assigns := fun _ => 0
  binds := fun _ => 0
  selfs := fun _ => 0
  prev := fun _ => 1
  defs := fun _ => 1
  opn := fun _ => false
  opts := 0

/-- A table with one entry changed. -/
def upd {α : Type} (f : Nat → α) (k : Nat) (x : α) : Nat → α :=
  fun j => if j = k then x else f j

/-- kos_compiler_optim.c 748-767 -/
def checkSelf (s : St) (v : Nat) : Bool :=
  s.isConst v && (match s.value v with
                  | some F => s.opn F
                  | none => false)

/-- The loop of mark_binds over the functions between the use of a variable and
    its owner.  kos_compiler_optim.c 784-792 -/
def markLoop (self : Bool) : List Nat → St → St
  | [], s => s
  | F :: Fs, s =>
    markLoop self Fs
      { s with selfs := if self then upd s.selfs F (s.selfs F + 1) else s.selfs,
               binds := upd s.binds F (s.binds F + 1) }

/-- kos_compiler_optim.c 769-794; `stack` are the open functions, the innermost
    one first. -/
def markBinds (stack : List Nat) (i v : Nat) (s : St) : St :=
  markLoop (checkSelf s v) (stack.take i) s

/-- kos_compiler_optim.c 1036-1070 -/
def isConstFun (s : St) (F : Nat) : Bool :=
  if s.defs F ≠ 0 then false
  else if s.binds F > s.selfs F then false
  else if s.opn F && s.prev F ≠ 0 then false
  else true

/-- A use becomes LOAD.CONST.  kos_compiler_optim.c 1106-1112 -/
def setFlag (r : Nat) (s : St) : St :=
  if s.flag r then s
  else { s with flag := upd s.flag r true, opts := s.opts + 1 }

/-- kos_compiler_optim.c 1072-1127 -/
def identifier (stack : List Nat) (r i v : Nat) (s : St) : St :=
  if i = 0 then s
  else
    match s.isConst v, s.value v with
    | true, some F => if isConstFun s F then setFlag r s else markBinds stack i v s
    | _, _ => markBinds stack i v s

/-- A variable which was never assigned becomes a constant.
    kos_compiler_optim.c 300-305 -/
def promoteVar (v : Nat) (s : St) : St :=
  if s.isConst v = false ∧ s.assigns v = 0 then
    { s with isConst := upd s.isConst v true, opts := s.opts + 1 }
  else s

/-- `num_assignments` is cleared when the scope of a variable is entered.
    kos_compiler_optim.c 241-255 -/
def resetVar (v : Nat) (s : St) : St :=
  { s with assigns := upd s.assigns v 0 }

/-- kos_compiler_optim.c 839-852, 1205-1221 -/
def assignVar (stack : List Nat) (i v : Nat) (s : St) : St :=
  let s := { s with assigns := upd s.assigns v (s.assigns v + 1) }
  if i = 0 then s else markBinds stack i v s

/-- `var->value = rhs_node`.  kos_compiler_optim.c 1193-1198 -/
def setValue (v : Nat) (f : Option Nat) (s : St) : St :=
  { s with value := upd s.value v f }

/-- Entering a function.  kos_compiler_optim.c 260-288, 950-958 -/
def openFun (F p : Nat) (s : St) : St :=
  resetVar p { s with opts := 0, binds := upd s.binds F 0, selfs := upd s.selfs F 0,
                      opn := upd s.opn F true }

/-- Leaving a function.  kos_compiler_optim.c 376-411 -/
def closeFun (F p : Nat) (s : St) : St :=
  let s := promoteVar p s
  let s := if s.selfs F = s.binds F ∧ s.prev F > s.selfs F then { s with opts := s.opts + 1 }
           else s
  { s with opn := upd s.opn F false, prev := upd s.prev F (s.binds F) }

/-- What follows a visit of a function: without default values `num_def_used`
    becomes 0.  kos_compiler_optim.c 966-976 -/
def endFun (F : Nat) (s : St) : St :=
  { s with defs := upd s.defs F 0 }

/-- The number of optimizations after a visit of a function. -/
def countOpts (F acc : Nat) (s : St) : Nat :=
  acc + s.opts + (if 0 < s.defs F then 1 else 0)

/-- The loop of function_literal.  `body` visits the body once.
    kos_compiler_optim.c 948-983 -/
def funLoop (body : St → Option St) (F p : Nat) : Nat → Nat → St → Option St
  | 0, _, _ => none
  | fuel + 1, acc, s =>
    match body (openFun F p s) with
    | none => none
    | some s1 =>
      let s2 := closeFun F p s1
      let acc' := countOpts F acc s2
      let s3 := endFun F s2
      if s3.opts = 0 then some { s3 with opts := acc' }
      else funLoop body F p fuel acc' s3

/-- `a` and then `b`. -/
def andThen (a b : St → Option St) (s : St) : Option St :=
  match a s with
  | none => none
  | some s1 => b s1

/-- visit_node of the optimizer.  kos_compiler_optim.c 2072-2210; assignment
    1129-1231, function_literal 917-986.
    `fuel` bounds the number of visits of each function. -/
def visit (fuel : Nat) : List Nat → E → St → Option St
  | _, .num _, s => some s
  | st, .ref r i v, s => some (identifier st r i v s)
  | st, .set i v e, s => andThen (visit fuel st e) (fun s1 => some (assignVar st i v s1)) s
  | st, .add a b, s => andThen (visit fuel st a) (visit fuel st b) s
  | st, .seq a b, s => andThen (visit fuel st a) (visit fuel st b) s
  | st, .ite c a b, s =>
    andThen (visit fuel st c) (andThen (visit fuel st a) (visit fuel st b)) s
  | st, .whl c b, s => andThen (visit fuel st c) (visit fuel st b) s
  | st, .call f a, s => andThen (visit fuel st f) (visit fuel st a) s
  | st, .fn F p b, s => funLoop (visit fuel (F :: st) b) F p fuel s.opts s
  | st, .letv v e rest, s =>
    andThen (visit fuel st e)
      (fun s1 => andThen (visit fuel st rest) (fun s2 => some (promoteVar v s2))
                   (setValue v e.fun? s1))
      (resetVar v s)
  | st, .letf v F p b rest, s =>
    andThen (funLoop (visit fuel (F :: st) b) F p fuel s.opts)
      (fun s1 => visit fuel st rest (setValue v (some F) s1))
      { s with isConst := upd s.isConst v true }

/-- The loop over passes.  kos_compiler.c 6536-6541; the model of one pass
    reuses `fuel` for the loops over functions. -/
def passes (P : E) (fuel : Nat) : Nat → St → Option St
  | 0, _ => none
  | n + 1, s =>
    match visit fuel [] P s with
    | none => none
    | some s1 => if s1.opts > s.opts then passes P fuel n s1 else some s1

/-- The optimizer as a whole. -/
def optimize (fuel : Nat) (P : E) : Option St :=
  passes P fuel fuel St.init

/-- How a function literal is loaded: `true` is INSTR_LOAD_CONST.
    kos_compiler.c 5681-5684 -/
def loadConst (s : St) (F : Nat) : Bool :=
  if s.defs F ≠ 0 ∨ s.binds F > s.selfs F then false else true

end Verif.Clos
