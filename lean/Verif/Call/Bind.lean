/-
Binding of arguments to parameters: which registers the compiler gives to parameters (core/kos_compiler_args.c:133-237 `update_arguments`,
core/kos_compiler.c:5605-5920 `gen_function`, 6013-6097 the defaults), and how a call fills them (core/kos_vm.c:480-519 `slice_args`, 521-698
`init_registers`, 780-813 `set_default_args_for_handler`, 815-921 `get_named_args`, 923-1125 `prepare_call`).

Values are opaque.  Arguments are a list: those in registers of the caller and those in an array are read in the same way.  Left out: failed
allocation, and other threads which change the array of arguments meanwhile.
-/
namespace Verif.Call

/-! ### The compiler -/

/-- A parameter: is there a default value (NT_ASSIGNMENT), and is the variable ever read or assigned? -/
structure Param where
  dflt : Bool
  used : Bool
  deriving Repr, DecidableEq

/-- The parameter which takes surplus arguments: is it used, and if it is captured by an inner function, its register among those of
independent variables. -/
structure Ell where
  used     : Bool
  captured : Option Nat := none
  deriving Repr, DecidableEq

/-- A function as it is declared.  The parser takes parameters without a default value first, then those with one, then the one with `...`
(core/kos_parser.c:307-380); what is given here is whether each is used.  `indep` is the number of independent local variables, `binds` the
number of variables bound from outside, with base constructor and prototype. -/
structure Decl where
  req   : List Bool
  opt   : List Bool
  ell   : Option Ell
  indep : Nat
  this  : Bool
  binds : Nat
  deriving Repr, DecidableEq

def Decl.params (f : Decl) : List Param := f.req.map (⟨false, ·⟩) ++ f.opt.map (⟨true, ·⟩)

/-- core/kos_compiler_args.c:183-186 and 228-229: the ellipsis is kept only if it is used. -/
def Decl.haveEll (f : Decl) : Bool := match f.ell with
  | some e => e.used
  | none => false

/-- core/kos_compiler_args.c:151-191: `max_used + 1`. -/
def lastUsed : Nat → List Param → Nat → Nat
  | _, [], m => m
  | i, p :: ps, m => lastUsed (i + 1) ps (if p.used then i + 1 else m)

/-- core/kos_compiler_args.c:193 -/
def Decl.numArgs (f : Decl) : Nat := if f.haveEll then f.params.length else lastUsed 0 f.params 0

/-- core/kos_compiler_args.c:194, with KOS_MAX_ARGS_IN_REGS = 32. -/
def Decl.haveRest (f : Decl) : Bool := decide (32 < f.numArgs)

/-- core/kos_compiler_args.c:214: VAR_ARGUMENT_IN_REG or VAR_ARGUMENT. -/
def Decl.inReg (f : Decl) (i : Nat) : Bool := !f.haveRest || decide (i < 31)

/-- core/kos_compiler_vars.c:891, core/kos_compiler_args.c:225 -/
def Decl.arrayIdx (_ : Decl) (i : Nat) : Nat := i - 31

/-- State of the loop over parameters in `gen_function`; `next` is `last_reg + 1`, and `regs` are the registers of arguments. -/
structure Gen where
  next    : Nat
  regs    : List Nat := []
  minArgs : Nat := 0
  numDecl : Nat := 0
  numUsed : Nat := 0
  rest    : Bool := false
  deriving Repr, DecidableEq

/-- core/kos_compiler.c:5706-5777, one parameter.  Registers are consecutive, as the code asserts. -/
def genParam (f : Decl) (i : Nat) (p : Param) (g : Gen) : Gen :=
  let g := if p.dflt then
      { g with numDecl := g.numDecl + 1, numUsed := if p.used || f.haveEll then g.numDecl + 1 else g.numUsed }
    else g
  if i < f.numArgs then
    let g := if p.dflt then g else { g with minArgs := g.minArgs + 1 }
    if f.inReg i then { g with regs := g.regs ++ [g.next], next := g.next + 1 }
    else { g with rest := true }
  else g

def genParams (f : Decl) : Nat → List Param → Gen → Gen
  | _, [], g => g
  | i, p :: ps, g => genParams f (i + 1) ps (genParam f i p g)

/-- KOS_NO_REG -/
def noReg : Nat := 255

/-- What the compiler knows about a function in the end (KOS_COMP_FUNCTION); `regs` are the registers of parameters. -/
structure Comp where
  numRegs : Nat
  minArgs : Nat
  numDef  : Nat
  argsReg : Nat
  restReg : Nat
  ellReg  : Nat
  thisReg : Nat
  bindReg : Nat
  regs    : List Nat
  deriving Repr, DecidableEq

/-- core/kos_compiler.c:5691-5905 and 6034: `none` if there are too many parameters or registers.  Registers after those given here are for
the code of the function (`extra`). -/
def compile (f : Decl) (extra : Nat) : Option Comp :=
  if 255 < f.params.length then none
  else
    let g := genParams f 0 f.params { next := f.indep }
    let restReg := if g.rest then g.next else noReg
    let next := if g.rest then g.next + 1 else g.next
    let thisReg := if f.this then next else noReg
    let next := if f.this then next + 1 else next
    let ell := match f.ell with
      | some ⟨true, some r⟩ => (r, next)
      | some ⟨true, none⟩ => (next, next + 1)
      | _ => (noReg, next)
    let bindReg := if f.binds = 0 then noReg else ell.2
    let numRegs := ell.2 + f.binds + extra
    if 255 < numRegs then none
    else some {
      numRegs := numRegs
      minArgs := g.minArgs
      numDef := if g.numDecl = 0 then g.numUsed else f.numArgs - g.minArgs
      argsReg := if g.minArgs + g.numUsed = 0 then noReg else f.indep
      restReg := restReg
      ellReg := ell.1
      thisReg := thisReg
      bindReg := bindReg
      regs := g.regs }

/-- core/kos_compiler.c:6030-6090: the array of default values; those of unused parameters are left void. -/
def makeDefaults {V : Type} (void : V) (f : Decl) (c : Comp) (value : Nat → V) : List V :=
  (List.range c.numDef).map fun j => if f.opt[j]?.getD false then value (f.req.length + j) else void

/-! ### The virtual machine -/

variable {V : Type}

/-- What is in a register: void, a value, or one of the arrays made for the call. -/
inductive Cell (V : Type)
  | void
  | val (v : V)
  | arr (l : List V)
  deriving Repr, DecidableEq

/-- A function object. -/
structure Func (V : Type) where
  opts     : Comp
  defaults : List V
  closures : List V

/-- core/kos_vm.c:480-519 -/
def sliceArgs (args : List V) (b e : Nat) : List V :=
  if b < args.length ∧ b < e then (args.drop b).take ((if args.length < e then args.length else e) - b) else []

/-- A write to one register; `none` if there is no such register. -/
def put (regs : List (Cell V)) (r : Nat) (c : Cell V) : Option (List (Cell V)) := if r < regs.length then some (regs.set r c) else none

/-- `kos_atomic_move_ptr` from `src[offs..]` to registers; `none` if this reads or writes out of bounds. -/
def move (regs : List (Cell V)) (r : Nat) (src : List V) (offs n : Nat) : Option (List (Cell V)) :=
  if r + n ≤ regs.length ∧ offs + n ≤ src.length then
    some (regs.take r ++ ((src.drop offs).take n).map .val ++ regs.drop (r + n))
  else none

/-- core/kos_vm.c:632-661, the array with the remaining arguments.  `KOS_array_insert` (C17) at the end of an array appends. -/
def restArray (fn : Func V) (args : List V) : List V :=
  let named := fn.opts.minArgs + fn.opts.numDef
  let regArgs := min fn.opts.restReg (fn.opts.argsReg + named) - fn.opts.argsReg
  let rest := sliceArgs args regArgs named
  if args.length < named ∧ regArgs < named then
    rest ++ fn.defaults.drop (if args.length < regArgs then regArgs - fn.opts.minArgs else args.length - regArgs)
  else rest

/-- core/kos_vm.c:559-564 -/
def initThis (fn : Func V) (this : V) (regs : List (Cell V)) : Option (List (Cell V)) :=
  if fn.opts.thisReg ≠ noReg then put regs fn.opts.thisReg (.val this) else some regs

/-- core/kos_vm.c:566-580 -/
def initEll (fn : Func V) (args : List V) (regs : List (Cell V)) : Option (List (Cell V)) :=
  if fn.opts.ellReg ≠ noReg then
    let named := fn.opts.minArgs + fn.opts.numDef
    put regs fn.opts.ellReg (.arr (if named < args.length then sliceArgs args named 0xFFFFFFFF else []))
  else some regs

/-- core/kos_vm.c:582-667 -/
def initArgs (fn : Func V) (args : List V) (regs : List (Cell V)) : Option (List (Cell V)) :=
  if fn.opts.argsReg ≠ noReg then
    let last := min fn.opts.restReg (fn.opts.argsReg + (fn.opts.minArgs + fn.opts.numDef))
    let toMove := min args.length (last - fn.opts.argsReg)
    match move regs fn.opts.argsReg args 0 toMove with
    | none => none
    | some regs =>
      let reg := fn.opts.argsReg + toMove
      match if reg < last then move regs reg fn.defaults (args.length - fn.opts.minArgs) (last - reg) else some regs with
      | none => none
      | some regs =>
        if fn.opts.restReg ≠ noReg then put regs fn.opts.restReg (.arr (restArray fn args)) else some regs
  else some regs

/-- core/kos_vm.c:669-693 -/
def initBinds (fn : Func V) (regs : List (Cell V)) : Option (List (Cell V)) :=
  if fn.opts.bindReg ≠ noReg then move regs fn.opts.bindReg fn.closures 0 fn.closures.length else some regs

/-- core/kos_vm.c:521-698 -/
def initRegisters (fn : Func V) (this : V) (args : List V) : Option (List (Cell V)) :=
  match initThis fn this (List.replicate fn.opts.numRegs .void) with
  | none => none
  | some regs =>
    match initEll fn args regs with
    | none => none
    | some regs =>
      match initArgs fn args regs with
      | none => none
      | some regs => initBinds fn regs

/-- The result of a call up to the first instruction of the function. -/
inductive Enter (V : Type)
  /-- access out of bounds, or an assertion which does not hold -/
  | bad
  /-- too few arguments -/
  | few
  /-- a parameter of this name is missing -/
  | missing (name : String)
  /-- there is no parameter of this name -/
  | unknown (name : String)
  /-- the function does not take named arguments -/
  | noNames
  | regs (regs : List (Cell V))
  deriving Repr, DecidableEq

/-- core/kos_vm.c:962-1013, a function written in Kos called with a list of arguments. -/
def enter (fn : Func V) (this : V) (args : List V) : Enter V :=
  if args.length < fn.opts.minArgs then .few
  else match initRegisters fn this args with
    | none => .bad
    | some regs => .regs regs

/-- What the code of the function finds when it reads a variable. -/
inductive Read (V : Type)
  | bad
  /-- exception: invalid index -/
  | exn
  | ok (v : V)
  deriving Repr, DecidableEq

/-- Parameter `i`, in its register or in the array with the remaining arguments (core/kos_compiler.c:5307-5343). -/
def readParam (f : Decl) (c : Comp) (regs : List (Cell V)) (i : Nat) : Read V :=
  if f.inReg i then
    match c.regs[i]? with
    | none => .bad
    | some r =>
      match regs[r]? with
      | some (.val v) => .ok v
      | _ => .bad
  else
    match regs[c.restReg]? with
    | some (.arr l) =>
      match l[f.arrayIdx i]? with
      | some v => .ok v
      | none => .exn
    | _ => .bad

/-! ### Built-in functions -/

/-- core/kos_vm.c:780-813 and 962-982: the array which a built-in function gets, or `none` for too few arguments. -/
def enterHandler (minArgs : Nat) (defaults : List V) (args : List V) : Option (List V) :=
  if args.length < minArgs then none
  else if defaults.length ≠ 0 ∧ args.length < minArgs + defaults.length then some (args ++ defaults.drop (args.length - minArgs))
  else some args

/-! ### Named arguments -/

/-- A property of an object which is used as a map: a small integer, or something else (a function, say). -/
inductive Idx
  | small (i : Nat)
  | other
  deriving Repr, DecidableEq

/-- core/kos_vm.c:847-873: store the values at the positions of their names.  `look` is `KOS_get_property` on the map of names. -/
def storeNamed (look : String → Option Idx) (maxArgs : Nat) : List (String × V) → List (Option V) → Nat → Except (Enter V) (List (Option V) × Nat)
  | [], slots, found => .ok (slots, found)
  | (name, v) :: rest, slots, found =>
    match look name with
    | none => .error (.unknown name)
    | some .other => .error .bad
    | some (.small idx) =>
      if idx < maxArgs then storeNamed look maxArgs rest (slots.set idx (some v)) (max found (idx + 1))
      else storeNamed look maxArgs rest slots found

/-- core/kos_vm.c:878-891: the first parameter without default value for which there is no argument. -/
def firstMissing : Nat → List (Option V) → Option Nat
  | _, [] => none
  | i, none :: _ => some i
  | i, some _ :: l => firstMissing (i + 1) l

/-- core/kos_vm.c:893-904: fill the gaps from index `i` on. -/
def fillGaps (minArgs : Nat) (defaults : List V) : Nat → List (Option V) → Option (List V)
  | _, [] => some []
  | i, some v :: l => (fillGaps minArgs defaults (i + 1) l).map (v :: ·)
  | i, none :: l =>
    match defaults[i - minArgs]? with
    | none => none
    | some d => (fillGaps minArgs defaults (i + 1) l).map (d :: ·)

/-- core/kos_vm.c:815-921.  The properties of the object are visited in any order; their names are different.  `nameOf` is `KOS_get_named_arg`.
`none` for `look`: the function has no map of names. -/
def namedArgs (fn : Func V) (look : Option (String → Option Idx)) (nameOf : Nat → String) (obj : List (String × V)) : Except (Enter V) (List V) :=
  match look with
  | none => .error .noNames
  | some look =>
    let maxArgs := fn.opts.numDef + fn.opts.minArgs
    match storeNamed look maxArgs obj (List.replicate maxArgs none) 0 with
    | .error e => .error e
    | .ok (slots, found) =>
      match firstMissing 0 (slots.take fn.opts.minArgs) with
      | some i => .error (.missing (nameOf i))
      | none =>
        -- the loops go up to here; `KOS_array_insert` replaces what follows
        let last := max fn.opts.minArgs found
        match fillGaps fn.opts.minArgs fn.defaults 0 (slots.take last) with
        | none => .error .bad
        | some l => .ok (if last < maxArgs then l ++ fn.defaults.drop (last - fn.opts.minArgs) else l)

/-- core/kos_vm.c:968-982 -/
def enterNamed (fn : Func V) (look : Option (String → Option Idx)) (nameOf : Nat → String) (this : V) (obj : List (String × V)) : Enter V :=
  match namedArgs fn look nameOf obj with
  | .error e => e
  | .ok args => enter fn this args

/-- core/kos_module.c:935-953: the map from names to indexes has an own property for each declared parameter, and the prototype of all
objects. -/
def lookName (proto : String → Option Idx) (names : List String) (name : String) : Option Idx :=
  match names.idxOf? name with
  | some i => some (.small i)
  | none => proto name

end Verif.Call
