/-
  Code for expressions and assignments (core/kos_compiler.c 106-253, 935-1004,
  2014-2035, 2259-2323, 3521-4246, 4293-4882, 4904-5274, 5276-5443, 5935-6219).

  The C functions take a register in which the result is wanted, or none, and
  return the register in which it is.  A register is a number; it belongs to a
  variable (`tmp` is 0) or is held for an intermediate result.

  Simplified:
  * Free registers are kept in a sorted list together with the number of registers
    which exist.  All numbers which are not held are taken to be free up to 255;
    the first free register is the least one, and a range starts at the least place
    at which there are enough free registers in a row.  C35 is about the lists.
  * All variables have registers from the start.
  * Code has branches instead of jumps (C30, C56, C59, C61); those for conditions of
    `?:` go where C56 says, and constant conditions are not recognized (C36).
  * `x = c ? x : x` evaluates `c` as a condition, not as a value (4490-4498).
  * All parameters with default values are taken to be used in the function (6051-6074).
  * The strings "async" and "insert" are taken to be among the first 256 constants.
  * Instructions with and without immediate operands do the same things.
  * Bindings of functions to outer variables are part of the instruction which
    loads the function.  Classes, super and tail calls are left out.
-/

namespace Verif.Ec

/-- Instructions, as far as their names matter. -/
inductive Prim
  /-- variables which are not in registers: GET.GLOBAL, GET.MOD, GET.MOD.ELEM, elements of closures -/
  | getVar (g : Nat)
  | setVar (g : Nat)
  | func (f : Nat)
  /-- TYPE, NOT and all with two operands -/
  | op (n : Nat)
  | sub
  | get (opt : Bool)
  | set
  | getRange
  | has (deep : Bool)
  | yield
  | newArray (n : Nat)
  | newObj
  | push
  | pushEx
  | bindDefaults
  /-- CALL.FUN, CALL.N and CALL -/
  | callFun
  | callN
  | call
  | newIter
  | next
deriving DecidableEq, Repr

/-- Constants.  LOAD.VOID, LOAD.TRUE, LOAD.FALSE, LOAD.INT8 and LOAD.CONST. -/
inductive Const
  | void
  | bool (b : Bool)
  | int (i : Int)
  | str (n : Nat)
deriving DecidableEq, Repr

inductive Operand
  | reg (r : Nat)
  | imm (c : Const)
deriving DecidableEq, Repr

mutual
inductive Code
  | skip
  | load (d : Nat) (c : Const)
  | move (d s : Nat)
  /-- writes the result to `d` -/
  | op (p : Prim) (d : Nat) (srcs : List Operand)
  /-- has no result -/
  | eff (p : Prim) (srcs : List Operand)
  | seq (a b : Code)
  /-- `a` if register `r` is truthy -/
  | ite (r : Nat) (a b : Code)
  | cond (t : Test) (a b : Code)
/-- Code which decides where to go. -/
inductive Test
  | val (c : Code) (r : Nat)
  | not (t : Test)
  | and (a b : Test)
  | or (a b : Test)
end

scoped infixr:60 " ;; " => Code.seq

/-- Name of a property; `far` if its index in the table of constants is above 255. -/
structure Key where
  far : Bool
  str : Nat
deriving DecidableEq, Repr

mutual
inductive Expr
  | lit (c : Const)
  | this
  /-- a variable in a register -/
  | local (x : Nat)
  /-- any other variable, also `module.name`; `ident` if there is an identifier in the source -/
  | var (g : Nat) (ident : Bool)
  | neg (e : Expr)
  | pos (e : Expr)
  /-- `!e`, or `!!e` if `twice`: all signs in front of `e` are here -/
  | not (twice : Bool) (e : Expr)
  /-- `a && b` or `a || b` -/
  | logic (isAnd : Bool) (a b : Expr)
  | cond (c : Cond) (a b : Expr)
  | unary (n : Nat) (e : Expr)
  | binary (n : Nat) (swap : Bool) (a b : Expr)
  /-- `e in "name"` and `e propertyof "name"` -/
  | has (deep : Bool) (e : Expr) (k : Key)
  | prop (opt : Bool) (e : Expr) (k : Key)
  /-- `e[i]`, `i` a literal of 8 bits -/
  | elem (opt : Bool) (e : Expr) (i : Int)
  | index (opt : Bool) (e k : Expr)
  | slice (e b f : Expr)
  | yield (e : Expr)
  | array (l : Elems)
  | object (l : Elems)
  /-- function literal with default values; `ident` if there is an identifier in it -/
  | func (f : Nat) (ident : Bool) (defaults : Elems)
  /-- `named` if called with named arguments -/
  | call (f : Callee) (named : Bool) (l : Elems)
  | async (f : Callee) (named : Bool) (l : Elems)
/-- Elements of an array, arguments, default values or properties. -/
inductive Elems
  | nil
  | cons (expand : Bool) (k : Key) (e : Expr) (l : Elems)
inductive Callee
  | fn (e : Expr)
  | prop (opt : Bool) (e : Expr) (k : Key)
  | elem (opt : Bool) (e : Expr) (i : Int)
  | index (opt : Bool) (e k : Expr)
  /-- function of a module, by name -/
  | module (g : Nat)
/-- Condition of `?:` -/
inductive Cond
  | val (e : Expr)
  | not (c : Cond)
  | logic (isAnd : Bool) (a b : Cond)
end

/- is_var_used, 3748-3778: the register of a variable counts as used by all
   identifiers. -/
mutual
def Expr.ids : Expr → Bool
  | .lit _ | .this => false
  | .local _ => true
  | .var _ i => i
  | .neg e | .pos e | .not _ e | .unary _ e | .has _ e _ | .prop _ e _ | .elem _ e _ | .yield e => e.ids
  | .logic _ a b | .binary _ _ a b | .index _ a b => a.ids || b.ids
  | .cond c a b => c.ids || a.ids || b.ids
  | .slice a b c => a.ids || b.ids || c.ids
  | .array l | .object l => l.ids
  | .func _ i l => i || l.ids
  | .call f _ l | .async f _ l => f.ids || l.ids
def Elems.ids : Elems → Bool
  | .nil => false
  | .cons _ _ e l => e.ids || l.ids
def Callee.ids : Callee → Bool
  | .fn e | .prop _ e _ | .elem _ e _ => e.ids
  | .index _ e k => e.ids || k.ids
  | .module _ => true
def Cond.ids : Cond → Bool
  | .val e => e.ids
  | .not c => c.ids
  | .logic _ a b => a.ids || b.ids
end

def Elems.length : Elems → Nat
  | .nil => 0
  | .cons _ _ _ l => l.length + 1

/-- count_contig_arg_siblings, 3782-3796 -/
def Elems.anyExpand : Elems → Bool
  | .nil => false
  | .cons x _ _ l => x || l.anyExpand

/-- The elements in front of the first `...`, 3846-3849. -/
def Elems.fixed : Elems → Nat
  | .nil => 0
  | .cons true _ _ _ => 0
  | .cons false _ _ l => l.fixed + 1

/-- estimate_initial_array_size, 3842-3852 -/
def initialSize (l : Elems) : Nat := min l.fixed 127

/-- What the compiler knows of registers. -/
structure Cx where
  /-- registers of variables, of `this` too -/
  vars : Nat → Bool
  this : Nat

/-- Registers held for intermediate results. -/
abbrev Tmps := Nat → Bool

def upd {α : Type} (f : Nat → α) (k : Nat) (x : α) : Nat → α := fun j => if j = k then x else f j

def Cx.free (cx : Cx) (t : Tmps) (k : Nat) : Bool := !cx.vars k && !t k

/-- gen_reg without a wanted register, 118-145; KOS_MAX_REGS is 255 -/
def genReg (cx : Cx) (t : Tmps) : Option (Nat × Tmps) :=
  ((List.range 255).find? fun k => cx.free t k).map fun k => (k, upd t k true)

def hold (t : Tmps) (k n : Nat) : Tmps := fun j => t j || (k ≤ j && j < k + n)

/-- gen_reg_range, 147-209 -/
def genRange (cx : Cx) (n : Nat) (t : Tmps) : Option (Nat × Tmps) :=
  ((List.range (256 - n)).find? fun k => (List.range n).all fun i => cx.free t (k + i)).map fun k => (k, hold t k n)

/-- gen_reg, 118-145 -/
def take (cx : Cx) (dest : Option Nat) (t : Tmps) : Option (Nat × Tmps) :=
  match dest with
  | some d => some (d, t)
  | none => genReg cx t

/-- gen_dest_reg, 211-228 -/
def destReg (cx : Cx) (dest : Option Nat) (src : Nat) (t : Tmps) : Option (Nat × Tmps) :=
  if cx.vars src && (dest = some src || dest = none) then genReg cx t
  else match dest with
    | some d => some (d, t)
    | none => some (src, t)

/-- free_reg, 230-253 -/
def freeReg (cx : Cx) (r : Nat) (t : Tmps) : Tmps := if cx.vars r then t else upd t r false

/-- `if (src != reg) free_reg(src)` -/
def freeNot (cx : Cx) (r src : Nat) (t : Tmps) : Tmps := if src = r then t else freeReg cx src t

/-- Takes the wanted register, or one of an operand if it is not of a variable, or a
    new one: 3712-3717, 4852-4860. -/
def reuse (cx : Cx) (dest : Option Nat) (srcs : List Nat) (t : Tmps) : Option (Nat × Tmps) :=
  match dest with
  | some d => some (d, t)
  | none =>
    match srcs.find? fun r => !cx.vars r with
    | some r => some (r, t)
    | none => genReg cx t

structure Out where
  code : Code
  reg : Nat
  tmps : Tmps

/-- gen_get_prop_instr, 2259-2298: the code and what is held. -/
def getProp (cx : Cx) (opt : Bool) (d o : Nat) (k : Key) (t : Tmps) : Option (Code × Tmps) :=
  if k.far then
    if d = o then do
      let (p, t) ← genReg cx t
      return (.load p (.str k.str) ;; .op (.get opt) d [.reg o, .reg p], freeReg cx p t)
    else return (.load d (.str k.str) ;; .op (.get opt) d [.reg o, .reg d], t)
  else return (.op (.get opt) d [.reg o, .imm (.str k.str)], t)

/-- gen_set_prop_instr, 2300-2323 -/
def setProp (cx : Cx) (o : Nat) (k : Key) (s : Nat) (t : Tmps) : Option (Code × Tmps) :=
  if k.far then do
    let (p, t) ← genReg cx t
    return (.load p (.str k.str) ;; .eff .set [.reg o, .reg p, .reg s], freeReg cx p t)
  else return (.eff .set [.reg o, .imm (.str k.str), .reg s], t)

/-- has_prop, 4569-4590 -/
def hasProp (cx : Cx) (deep : Bool) (d s : Nat) (k : Key) (t : Tmps) : Option (Code × Tmps) :=
  if k.far then
    if d = s then do
      let (p, t) ← genReg cx t
      return (.load p (.str k.str) ;; .op (.has deep) d [.reg s, .reg p], freeReg cx p t)
    else return (.load d (.str k.str) ;; .op (.has deep) d [.reg s, .reg d], t)
  else return (.op (.has deep) d [.reg s, .imm (.str k.str)], t)

/-- What elements are stored to. -/
inductive Mode
  /-- an array with this many elements in the beginning, gen_array -/
  | array (n : Nat)
  /-- an array of default values, 6013-6090 -/
  | defaults
  /-- an object, object_literal -/
  | object

/-- How element `i` is stored: 3886-3891, 6079-6080, 6212. -/
def store (cx : Cx) (m : Mode) (o i : Nat) (expand : Bool) (k : Key) (s : Nat) (t : Tmps) : Option (Code × Tmps) :=
  match m with
  | .array n =>
    if i < n then return (.eff .set [.reg o, .imm (.int i), .reg s], t)
    else if expand then return (.eff .pushEx [.reg o, .reg s], t)
    else return (.eff .push [.reg o, .reg s], t)
  | .defaults => return (.eff .set [.reg o, .imm (.int i), .reg s], t)
  | .object => setProp cx o k s t

/-- check_if_node_is_register, 4453-4460 -/
def isReg (dest : Option Nat) : Expr → Bool
  | .local x => dest = some x
  | _ => false

def isVar (cx : Cx) (dest : Option Nat) : Bool :=
  match dest with
  | some d => cx.vars d
  | none => false

/-- Elements of an array have siblings; values of properties and defaults have not. -/
def Mode.sib (m : Mode) (l : Elems) : Bool :=
  match m with
  | .array _ => l.ids
  | _ => false

/-- `src` is moved if it is not the wanted register. -/
def moveTo (d s : Nat) : Code := if s = d then .skip else .move d s

/-- A branch of `?:` put into the register of the result, 4502-4517 and 4527-4542. -/
def intoDest (cx : Cx) (dest : Option Nat) (o : Out) : Option Out :=
  if dest = some o.reg then return o
  else do
    let (d, t) ← (match dest with
      | some d => some (d, o.tmps)
      | none => destReg cx none o.reg o.tmps)
    return { code := o.code ;; .move d o.reg, reg := d, tmps := freeNot cx d o.reg t }

abbrev Fill := Nat → Tmps → Option (Code × Tmps)

/-- gen_array, 3854-3898; `fill` stores the elements. -/
def genArray (cx : Cx) (dest : Option Nat) (l : Elems) (fill : Fill) (t : Tmps) : Option Out := do
  let (d, t) ← take cx (if l.ids && isVar cx dest then none else dest) t
  let (c, t) ← fill d t
  return { code := .op (.newArray (initialSize l)) d [] ;; c, reg := d, tmps := t }

/-- object_literal, 6142-6219, without a prototype; `fill` stores the properties. -/
def genObject (cx : Cx) (dest : Option Nat) (fill : Fill) (t : Tmps) : Option Out := do
  let (d, t) ← take cx dest t
  let (c, t) ← fill d t
  return { code := .op .newObj d [] ;; c, reg := d, tmps := t }

/-- gen_args_array, 3916-3924 -/
def genPack (cx : Cx) (dest : Option Nat) (named : Bool) (l : Elems) (fill : Mode → Fill) (t : Tmps) : Option Out :=
  if named then genObject cx dest (fill .object) t else genArray cx dest l (fill (.array (initialSize l))) t

/-- 6108-6113 -/
def intoOther (cx : Cx) (dest : Option Nat) (o : Out) : Out :=
  match dest with
  | none => o
  | some d =>
    if o.reg = d then o else { code := o.code ;; .move d o.reg, reg := d, tmps := freeReg cx o.reg o.tmps }

/-- The end of log_and_or, 4429-4447: `d` is the register of the result, `l` and `r`
    are those of the operands, `b` is the code for the second one. -/
def logicEnd (cx : Cx) (isAnd : Bool) (d l r : Nat) (b : Code) (t : Tmps) : Code × Tmps :=
  let t := if d ≠ r ∧ l ≠ r then freeReg cx r t else t
  let b := b ;; (if d ≠ r ∧ l ≠ r then .move d r else .skip)
  let e : Code := if d ≠ l then .move d l else .skip
  let t := if d ≠ l then freeReg cx l t else t
  if d ≠ l ∧ l ≠ r then ((if isAnd then .ite l b e else .ite l e b), t)
  else ((if isAnd then .ite l b .skip else .ite l .skip b) ;; e, t)

/-- The register for the result of log_and_or, 4412-4427. -/
def logicReg (cx : Cx) (dest : Option Nat) (l r : Nat) (t : Tmps) : Option (Nat × Tmps) :=
  match (if cx.vars l = false ∧ dest = none then some l else dest) with
  | some d => some (d, t)
  | none => if cx.vars r then genReg cx t else some (r, t)

/-- A callee: code, register of the function, register of the object, what is held. -/
structure Fun where
  code : Code
  reg : Nat
  obj : Option Nat
  tmps : Tmps

def argRegs (k : Nat) : Nat → List Operand
  | 0 => []
  | n + 1 => .reg k :: argRegs (k + 1) n

/-- CALL.FUN or CALL.N, 4107-4118 -/
def callCode (d : Nat) (f : Fun) (args : List Operand) : Code :=
  match f.obj with
  | some o => .op .callN d (.reg f.reg :: .reg o :: args)
  | none => .op .callFun d (.reg f.reg :: args)

def freeRange (cx : Cx) (d k : Nat) : Nat → Tmps → Tmps
  | 0, t => t
  | n + 1, t => freeRange cx d k n (freeNot cx d (k + n) t)

/-- 4162-4164 -/
def freeFun (cx : Cx) (f : Fun) (t : Tmps) : Tmps :=
  match f.obj with
  | some o => freeReg cx o (freeReg cx f.reg t)
  | none => freeReg cx f.reg t

/-- The object of a call with an array of arguments, 4146-4149. -/
def thisObj (cx : Cx) (f : Fun) (t : Tmps) : Option (Code × Nat × Tmps) :=
  match f.obj with
  | some o => some (.skip, o, t)
  | none => do
    let (o, t) ← genReg cx t
    return (.load o .void, o, t)

/-- The end of a call with an array or object of arguments in `a`, 4143-4164. -/
def callArray (cx : Cx) (dest : Option Nat) (f : Fun) (c : Code) (a : Nat) (t : Tmps) : Option Out := do
  let d := dest.getD a
  let (c2, o, t) ← thisObj cx f t
  return { code := f.code ;; c ;; c2 ;; .op .call d [.reg f.reg, .reg o, .reg a], reg := d
           tmps := freeReg cx o (freeReg cx f.reg (freeNot cx d a t)) }

/-- The register for the object of async, 4214-4217 and 4226-4227. -/
def asyncThis (cx : Cx) (k : Nat) (obj : Option (Option Nat)) (t : Tmps) : Code × Code × Tmps :=
  match obj with
  | some (some o) => (.move k o, .skip, freeReg cx o t)
  | some none => (.skip, .load k .void, t)
  | none => (.skip, .skip, t)

/-- The string "async". -/
def strAsync : Nat := 0

def asyncObj (f : Callee) (g : Fun) : Option (Option Nat) :=
  match f with
  | .module _ => none
  | _ => some g.obj

/-- The end of async_op, 4210-4236.  `obj` is `some none` if the function is not a
    property and `none` if it belongs to a module: then `obj` still is `argn[0]`. -/
def asyncEnd (cx : Cx) (dest : Option Nat) (f : Nat) (obj : Option (Option Nat)) (k : Nat) (t : Tmps) :
    Option (Code × Nat × Tmps) := do
  let (c1, c2, t) := asyncThis cx k obj t
  let (a, t) ← take cx (if dest ≠ none ∧ dest ≠ some f then dest else none) t
  let d := dest.getD a
  let (g, t) ← getProp cx false a f { far := false, str := strAsync } t
  return (c1 ;; g ;; c2 ;; .op .callN d [.reg a, .reg f, .reg k, .reg (k + 1)], d,
    freeReg cx (k + 1) (freeReg cx k (freeNot cx d a (freeNot cx d f t))))

mutual
/-- visit_node, 6370-6502.  `sib` if there are identifiers in the nodes behind. -/
def gen (cx : Cx) (sib : Bool) (dest : Option Nat) : Expr → Tmps → Option Out
  -- 5351-5402, 5413-5437
  | .lit c, t => do
    let (d, t) ← take cx dest t
    return { code := .load d c, reg := d, tmps := t }
  -- 5404-5411
  | .this, t => return { code := .skip, reg := cx.this, tmps := t }
  -- identifier, 5276-5349
  | .local x, t => return { code := .skip, reg := x, tmps := t }
  | .var g _, t => do
    let (d, t) ← take cx dest t
    return { code := .op (.getVar g) d [], reg := d, tmps := t }
  -- pos_neg, 4293-4338
  | .neg e, t => do
    let o ← gen cx false dest e t
    let (d, t) ← destReg cx dest o.reg o.tmps
    let (v, t) ← genReg cx t
    return { code := o.code ;; .load v (.int 0) ;; .op .sub d [.reg v, .reg o.reg], reg := d
             tmps := freeNot cx d o.reg (freeReg cx v t) }
  | .pos e, t => gen cx false dest e t
  -- log_not, 4340-4380
  | .not twice e, t => do
    let o ← gen cx false none e t
    let (d, t) ← take cx dest o.tmps
    if o.reg = d then
      let (s, t) ← genReg cx t
      return { code := o.code ;; .move s d ;; .load d (.bool false) ;;
                 (if twice then .ite s (.load d (.bool true)) .skip else .ite s .skip (.load d (.bool true)))
               reg := d, tmps := freeReg cx s t }
    else
      return { code := o.code ;; .load d (.bool false) ;;
                 (if twice then .ite o.reg (.load d (.bool true)) .skip else .ite o.reg .skip (.load d (.bool true)))
               reg := d, tmps := freeReg cx o.reg t }
  -- log_and_or, 4382-4451
  | .logic isAnd a b, t => do
    let l ← gen cx false none a t
    let r ← gen cx false (if cx.vars l.reg then none else some l.reg) b l.tmps
    let (d, t) ← logicReg cx dest l.reg r.reg r.tmps
    let (c, t) := logicEnd cx isAnd d l.reg r.reg r.code t
    return { code := l.code ;; c, reg := d, tmps := t }
  -- log_tri, 4462-4553
  | .cond c a b, t =>
    do
      let (q, t) ← genTest cx (a.ids || b.ids) c t
      if isReg dest a then
        if isReg dest b then return { code := .cond q .skip .skip, reg := dest.getD 0, tmps := t }
        else do
          let o ← gen cx false dest b t
          let o ← intoDest cx dest o
          return { code := .cond q .skip o.code, reg := o.reg, tmps := o.tmps }
      else do
        let o ← gen cx b.ids dest a t
        let o ← intoDest cx dest o
        if isReg dest b then return { code := .cond q o.code .skip, reg := o.reg, tmps := o.tmps }
        else do
          let p ← gen cx false (some o.reg) b o.tmps
          let p ← intoDest cx (some o.reg) p
          return { code := .cond q o.code p.code, reg := p.reg, tmps := p.tmps }
  -- process_operator, 4664-4882
  | .unary n e, t => do
    let o ← gen cx false none e t
    let (d, t) ← reuse cx dest [o.reg] o.tmps
    return { code := o.code ;; .op (.op n) d [.reg o.reg], reg := d, tmps := freeNot cx d o.reg t }
  | .binary n swap a b, t => do
    let o1 ← gen cx b.ids none a t
    let o2 ← gen cx false none b o1.tmps
    let (d, t) ← reuse cx dest [o1.reg, o2.reg] o2.tmps
    return { code := o1.code ;; o2.code ;; .op (.op n) d
               (if swap then [.reg o2.reg, .reg o1.reg] else [.reg o1.reg, .reg o2.reg])
             reg := d, tmps := freeNot cx d o2.reg (freeNot cx d o1.reg t) }
  -- has_prop, 4555-4597
  | .has deep e k, t => do
    let o ← gen cx false dest e t
    let (d, t) ← destReg cx dest o.reg o.tmps
    let (c, t) ← hasProp cx deep d o.reg k t
    return { code := o.code ;; c, reg := d, tmps := freeNot cx d o.reg t }
  -- refinement_object, 3555-3630
  | .prop opt e k, t => do
    let o ← gen cx false none e t
    let (d, t) ← destReg cx dest o.reg o.tmps
    let (c, t) ← getProp cx opt d o.reg k t
    return { code := o.code ;; c, reg := d, tmps := freeNot cx d o.reg t }
  | .elem opt e i, t => do
    let o ← gen cx false none e t
    let (d, t) ← destReg cx dest o.reg o.tmps
    return { code := o.code ;; .op (.get opt) d [.reg o.reg, .imm (.int i)], reg := d, tmps := freeNot cx d o.reg t }
  | .index opt e k, t => do
    let o ← gen cx k.ids none e t
    let (d, t) ← destReg cx dest o.reg o.tmps
    let p ← gen cx false none k t
    return { code := o.code ;; p.code ;; .op (.get opt) d [.reg o.reg, .reg p.reg], reg := d
             tmps := freeNot cx d o.reg (freeReg cx p.reg p.tmps) }
  -- slice, 3684-3729
  | .slice e b f, t => do
    let o ← gen cx (b.ids || f.ids) none e t
    let p ← gen cx f.ids none b o.tmps
    let q ← gen cx false none f p.tmps
    let (d, t) ← reuse cx dest [o.reg] q.tmps
    return { code := o.code ;; p.code ;; q.code ;; .op .getRange d [.reg o.reg, .reg p.reg, .reg q.reg], reg := d
             tmps := freeNot cx d o.reg (freeReg cx p.reg (freeReg cx q.reg t)) }
  -- yield, 2014-2035
  | .yield e, t => do
    let o ← gen cx false dest e t
    let (d, t) ← destReg cx dest o.reg o.tmps
    return { code := o.code ;; .op .yield d [.reg o.reg], reg := d, tmps := freeNot cx d o.reg t }
  -- array_literal, 6099-6117
  | .array l, t => do
    let o ← genArray cx dest l (fun r t => genFill cx (.array (initialSize l)) r 0 l t) t
    return intoOther cx dest o
  -- object_literal, 6142-6219, without a prototype
  | .object l, t => genObject cx dest (fun r t => genFill cx .object r 0 l t) t
  -- function_literal, 5935-6097
  | .func f _ l, t => do
    if l.length = 0 then do
      let (d, t) ← take cx dest t
      return { code := .op (.func f) d [], reg := d, tmps := t }
    else do
      let (d, t) ← take cx dest t
      let (a, t) ← genReg cx t
      let (c, t) ← genFill cx .defaults a 0 l t
      return { code := .op (.func f) d [] ;; .op (.newArray l.length) a [] ;; c ;; .eff .bindDefaults [.reg d, .reg a]
               reg := d, tmps := freeReg cx a t }
  -- invocation, 4006-4168
  | .call f named l, t => do
    let args := if (sib || f.ids || l.ids) && isVar cx dest then none else dest
    let g ← genCallee cx l.ids none f t
    if named || l.anyExpand || 4 < l.length then do
      let o ← genPack cx args named l (fun m r t => genFill cx m r 0 l t) g.tmps
      callArray cx dest g o.code o.reg o.tmps
    else if l.length = 0 then do
      let (d, t) ← take cx dest g.tmps
      return { code := g.code ;; callCode d g [], reg := d, tmps := freeFun cx g t }
    else if l.length = 1 then do
      let o ← genOnly cx l g.tmps
      let (d, t) ← reuse cx dest [o.reg] o.tmps
      return { code := g.code ;; o.code ;; callCode d g [.reg o.reg], reg := d
               tmps := freeFun cx g (freeNot cx d o.reg t) }
    else do
      let (k, t) ← genRange cx l.length g.tmps
      let (c, t) ← genArgs cx k l t
      let d := dest.getD k
      return { code := g.code ;; c ;; callCode d g (argRegs k l.length), reg := d
               tmps := freeFun cx g (freeRange cx d k l.length t) }
  -- async_op, 4170-4240
  | .async f named l, t => do
    let (k, t) ← genRange cx 2 t
    let g ← genCallee cx l.ids dest f t
    let o ← genPack cx (some (k + 1)) named l (fun m r t => genFill cx m r 0 l t) g.tmps
    let (c, d, t) ← asyncEnd cx dest g.reg (asyncObj f g) k o.tmps
    return { code := g.code ;; o.code ;; c, reg := d, tmps := t }

/-- gen_cond_jump, 1755-1852; see C56 -/
def genTest (cx : Cx) (sib : Bool) : Cond → Tmps → Option (Test × Tmps)
  | .val e, t => do
    let o ← gen cx sib none e t
    return (.val o.code o.reg, freeReg cx o.reg o.tmps)
  | .not c, t => do
    let (q, t) ← genTest cx false c t
    return (.not q, t)
  | .logic isAnd a b, t => do
    let (p, t) ← genTest cx b.ids a t
    let (q, t) ← genTest cx false b t
    return (if isAnd then .and p q else .or p q, t)

/-- The elements one after another: 3868-3894, 6030-6083, 6170-6215. -/
def genFill (cx : Cx) (m : Mode) (r i : Nat) : Elems → Tmps → Option (Code × Tmps)
  | .nil, t => return (.skip, t)
  | .cons x k e l, t => do
    let o ← gen cx (m.sib l) none e t
    let (c, t) ← store cx m r i x k o.reg o.tmps
    let (c2, t) ← genFill cx m r (i + 1) l (freeReg cx o.reg t)
    return (o.code ;; c ;; c2, t)

/-- The only argument, in any register: 4071-4084. -/
def genOnly (cx : Cx) : Elems → Tmps → Option Out
  | .nil, _ => none
  | .cons _ _ e _, t => gen cx false none e t

/-- Arguments in consecutive registers, 4068-4089 -/
def genArgs (cx : Cx) (k : Nat) : Elems → Tmps → Option (Code × Tmps)
  | .nil, t => return (.skip, t)
  | .cons _ _ e l, t => do
    let o ← gen cx l.ids (some k) e t
    let (c, t) ← genArgs cx (k + 1) l o.tmps
    return (o.code ;; moveTo k o.reg ;; c, t)

/-- maybe_refinement, 3663-3682, refinement, 3632-3661, refinement_object with
    `out_obj`, 3575-3591, refinement_module, 3469-3492.  `sib` is for what is behind the callee. -/
def genCallee (cx : Cx) (sib : Bool) (dest : Option Nat) : Callee → Tmps → Option Fun
  | .fn e, t => do
    let o ← gen cx sib dest e t
    return { code := o.code, reg := o.reg, obj := none, tmps := o.tmps }
  | .prop opt e k, t => do
    let o ← gen cx false none e t
    let (d, t) ← take cx dest o.tmps
    let (c, t) ← getProp cx opt d o.reg k t
    return { code := o.code ;; c, reg := d, obj := some o.reg, tmps := t }
  | .elem opt e i, t => do
    let o ← gen cx false none e t
    let (d, t) ← take cx dest o.tmps
    return { code := o.code ;; .op (.get opt) d [.reg o.reg, .imm (.int i)], reg := d, obj := some o.reg, tmps := t }
  | .index opt e k, t => do
    let o ← gen cx k.ids none e t
    let (d, t) ← take cx dest o.tmps
    let p ← gen cx false none k t
    return { code := o.code ;; p.code ;; .op (.get opt) d [.reg o.reg, .reg p.reg], reg := d
             obj := some o.reg, tmps := freeReg cx p.reg p.tmps }
  | .module g, t => do
    let (d, t) ← take cx dest t
    return { code := .op (.getVar g) d [], reg := d, obj := none, tmps := t }
end

/-- What an assignment writes to. -/
inductive Target
  | local (x : Nat)
  | var (g : Nat)
  | prop (e : Expr) (k : Key)
  | elem (e : Expr) (i : Int)
  | index (e k : Expr)
  | slice (e b f : Expr)
  | none

/-- The operator of an assignment: the code which computes the new value, the
    register it is in, what is held, and what is to be released. -/
def withOp (cx : Cx) (op : Option Nat) (get : Nat → Code) (src : Nat) (t : Tmps) : Option (Code × Nat × Tmps × Option Nat) :=
  match op with
  | .none => return (.skip, src, t, .none)
  | some n => do
    let (d, t) ← genReg cx t
    return (get d ;; .op (.op n) d [.reg d, .reg src], d, t, some d)

def freeOpt (cx : Cx) (r : Option Nat) (t : Tmps) : Tmps :=
  match r with
  | .none => t
  | some r => freeReg cx r t

/-- The string "insert". -/
def strInsert : Nat := 1

/-- assign_member, 4904-4990, assign_non_local, 4992-5031, assign_slice, 5033-5108;
    `src` is released, 5262-5263. -/
def assign (cx : Cx) (op : Option Nat) (src : Nat) : Target → Tmps → Option (Code × Tmps)
  | .local _, _ => .none
  | .var g, t => do
    let (c, s, t, r) ← withOp cx op (fun d => .op (.getVar g) d []) src t
    return (c ;; .eff (.setVar g) [.reg s], freeReg cx src (freeOpt cx r t))
  | .prop e k, t => do
    let o ← gen cx false .none e t
    match op with
    | .none => do
      let (c, t) ← setProp cx o.reg k src o.tmps
      return (o.code ;; c, freeReg cx src (freeReg cx o.reg t))
    | some n => do
      let (d, t) ← genReg cx o.tmps
      let (g, t) ← getProp cx false d o.reg k t
      let (c, t) ← setProp cx o.reg k d t
      return (o.code ;; g ;; .op (.op n) d [.reg d, .reg src] ;; c, freeReg cx src (freeReg cx o.reg (freeReg cx d t)))
  | .elem e i, t => do
    let o ← gen cx false .none e t
    let (c, s, t, r) ← withOp cx op (fun d => .op (.get false) d [.reg o.reg, .imm (.int i)]) src o.tmps
    return (o.code ;; c ;; .eff .set [.reg o.reg, .imm (.int i), .reg s], freeReg cx src (freeReg cx o.reg (freeOpt cx r t)))
  | .index e k, t => do
    let o ← gen cx k.ids .none e t
    let p ← gen cx false .none k o.tmps
    let (c, s, t, r) ← withOp cx op (fun d => .op (.get false) d [.reg o.reg, .reg p.reg]) src p.tmps
    return (o.code ;; p.code ;; c ;; .eff .set [.reg o.reg, .reg p.reg, .reg s],
      freeReg cx src (freeReg cx o.reg (freeOpt cx r (freeReg cx p.reg t))))
  | .slice e b f, t => do
    let (k, t) ← genRange cx 3 (freeReg cx src t)
    let p ← gen cx f.ids (some k) b t
    let q ← gen cx false (some (k + 1)) f p.tmps
    let o ← gen cx (b.ids || f.ids) .none e q.tmps
    let (h, t) ← genReg cx o.tmps
    let (g, t) ← getProp cx false h o.reg { far := false, str := strInsert } t
    return (moveTo (k + 2) src ;; p.code ;; moveTo k p.reg ;; q.code ;; moveTo (k + 1) q.reg ;; o.code ;; g ;;
        .op .callN h [.reg h, .reg o.reg, .reg k, .reg (k + 1), .reg (k + 2)],
      freeReg cx o.reg (freeReg cx h (freeReg cx k (freeReg cx (k + 1) (freeReg cx (k + 2) t)))))
  | .none, t => return (.skip, freeReg cx src t)

/-- The targets of an assignment of several values, 5195-5267. -/
def genNext (cx : Cx) (it : Nat) : List Target → Tmps → Option (Code × Tmps)
  | [], t => return (.skip, t)
  | .local x :: l, t => do
    let (c, t) ← genNext cx it l t
    return (.op .next x [.reg it] ;; c, t)
  | g :: l, t => do
    let (r, t) ← genReg cx t
    let (c1, t) ← assign cx .none r g t
    let (c2, t) ← genNext cx it l t
    return (.op .next r [.reg it] ;; c1 ;; c2, t)

inductive Stmt
  | expr (e : Expr)
  /-- `op` is the operator of `+=` and the like -/
  | assign (op : Option Nat) (g : Target) (e : Expr)
  | multi (l : List Target) (e : Expr)

/-- assignment, 5110-5274; NT_INVOCATION as a statement, 6370-6502 -/
def genStmt (cx : Cx) : Stmt → Tmps → Option (Code × Tmps)
  | .expr e, t => do
    let o ← gen cx false .none e t
    return (o.code, freeReg cx o.reg o.tmps)
  | .assign .none (.local x) e, t => do
    let o ← gen cx false (some x) e t
    return (o.code ;; moveTo x o.reg, freeNot cx x o.reg o.tmps)
  | .assign (some n) (.local x) e, t => do
    let o ← gen cx false .none e t
    return (o.code ;; .op (.op n) x [.reg x, .reg o.reg], freeReg cx o.reg o.tmps)
  | .assign op g e, t => do
    let o ← gen cx false .none e t
    let (c, t) ← assign cx op o.reg g o.tmps
    return (o.code ;; c, t)
  | .multi l e, t => do
    let o ← gen cx false .none e t
    let (d, t) ← destReg cx .none o.reg o.tmps
    let (c, t) ← genNext cx d l t
    return (o.code ;; .op .newIter d [.reg o.reg] ;; c, freeReg cx d t)

/-- Statements of a block. -/
def genAll (cx : Cx) : List Stmt → Tmps → Option (Code × Tmps)
  | [], t => return (.skip, t)
  | s :: l, t => do
    let (c, t) ← genStmt cx s t
    let (c2, t) ← genAll cx l t
    return (c ;; c2, t)

end Verif.Ec
