import Verif.Ctl.Machine

/-
The compiler's generation of code for statements: core/kos_compiler.c.

Registers: each `try` holds one register for the exception while its parts are compiled, other registers here are temporary.  The next free
register is given by the number of `try` statements around (that the allocator gives different registers is C35).
Left out: errors of the compiler (memory, size of code, the limit of 25 CATCH instructions per scope), line information, tail calls, and
resetting of loop variables at the end of `for`.  Arrays of jumps are lists (C59 is about their storage), and the order in the lists
of pending jumps is not kept.  Deviating from the code, `switch` with two `default` clauses uses the first one; the parser rejects it.
-/
namespace Verif.Ctl

/-- The compiler's state: code, number of jump entries, targets set so far, and for the current function: pending `break`, `continue` and
`fallthrough`, pending returns in `defer`, and CATCH instructions which wait for the handler of the `try` with a given register. -/
structure St where
  code    : List Instr := []
  n       : Nat := 0
  log     : List (Nat × Nat) := []
  breaks  : List (Kind × Nat) := []
  returns : List Nat := []
  kids    : List (Nat × Nat) := []
  deriving DecidableEq, Repr

structure Ctx where
  /-- `program->optimize` -/
  opt   : Bool
  /-- `try` scopes whose `catch_reg` is set, innermost first: the register and `finally_active`. -/
  tries : List (Nat × Bool) := []
  /-- The register of `last_try_scope`. -/
  last  : Option Nat := none
  /-- The next free register. -/
  d     : Nat := 0
  /-- Registers of variables of `catch` clauses. -/
  env   : List Nat := []
  deriving DecidableEq, Repr

/-- `cur_offs` -/
def St.pc (st : St) : Nat := st.code.length

/-- `gen_instr` -/
def St.emit (st : St) (i : Instr) : St := { st with code := st.code ++ [i] }

/-- core/kos_compiler.c:1014-1037 `add_jump_instr`, followed by the instruction. -/
def St.emitJ (st : St) (i : Nat → Instr) : St := { st with code := st.code ++ [i st.n], n := st.n + 1 }

/-- core/kos_compiler.c:1039-1046 `set_jump_target`. -/
def St.set (st : St) (e t : Nat) : St := { st with log := st.log ++ [(e, t)] }

/-- core/kos_compiler.c:1711-1720 `update_jump_array`. -/
def St.setAll (st : St) (es : List Nat) (t : Nat) : St := { st with log := st.log ++ es.map fun e => (e, t) }

/-- The same for an entry which may be `KOS_NO_JUMP`. -/
def St.setO (st : St) : Option Nat → St
  | some e => st.set e st.pc
  | none => st

/-! ### Conditions -/

/-- core/kos_compiler.c:1755-1833 `gen_cond_jump_inner`; `op` is `true` for JUMP.COND.  The arrays of far and near jumps are `J` and `N`.
The loop in the code is a recursion here. -/
def genInner (x : Ctx) : Cond → Bool → St → List Nat → List Nat → St × List Nat × List Nat
  | .not c, op, st, J, N => genInner x c (!op) st J N
  | .or a b, op, st, J, N =>
    if op then
      match genInner x a op st J N with
      | (st, J, N) => genInner x b op st J N
    else
      match genInner x a (!op) st N J with
      | (st, N, J) => genInner x b op st J N
  | .and a b, op, st, J, N =>
    if op then
      match genInner x a (!op) st N J with
      | (st, N, J) => genInner x b op st J N
    else
      match genInner x a op st J N with
      | (st, J, N) => genInner x b op st J N
  | .leaf i known, op, st, J, N =>
    if x.opt ∧ known = some op then (st.emitJ .jmp, J ++ [st.n], N)
    else if x.opt ∧ known = some (!op) then (st, J, N)
    else ((st.emit (.eval i x.d x.env)).emitJ (.jcond op x.d), J ++ [st.n], N)

/-- core/kos_compiler.c:1835-1852 `gen_cond_jump`. -/
def genCond (x : Ctx) (c : Cond) (op : Bool) (st : St) : St × List Nat :=
  match genInner x c op st [] [] with
  | (st, J, N) => (st.setAll N st.pc, J)

/-- `kos_node_is_falsy` on a condition. -/
def Cond.falsy : Cond → Bool
  | .leaf _ known => known == some false
  | _ => false

/-! ### Statements -/

/-- core/kos_compiler.c:2856-2895 `restore_catch`. -/
def St.restoreCatch (st : St) : Option Nat → St
  | some r => { st.emitJ (.catch r) with kids := st.kids ++ [(r, st.n)] }
  | none => st.emit .cancel

/-- core/kos_compiler.c:1898-1907 `find_try_scope`. -/
def Ctx.top (x : Ctx) : Option Nat := x.tries.head?.map (·.1)

/-- core/kos_compiler.c:1920-1953 `gen_return`. -/
def genReturn (x : Ctx) (reg : Nat) (st : St) : St :=
  match x.tries.find? (·.2) with
  | some (r, _) =>
    let st := if reg ≠ r then st.emit (.move r reg) else st
    let e := st.n
    let st := st.emitJ .jmp
    { st with returns := e :: st.returns }
  | none => st.emit (.ret reg)

/-- Targets of pending jumps at the end of a loop (`cont` is where `continue` leads to) or `switch` (`none`). -/
def resolve (pc : Nat) (cont : Option Nat) : Kind × Nat → Option (Nat × Nat)
  | (.brk, e) => some (e, pc)
  | (.cont, e) => cont.map fun c => (e, c)
  | (.fall, _) => none

/-- Pending jumps which are left for the statement around. -/
def kept (cont : Option Nat) : Kind × Nat → Bool
  | (.brk, _) => false
  | (.cont, _) => cont.isNone
  | (.fall, _) => cont.isSome

/-- core/kos_compiler.c:2091-2120 `finish_break_continue` -/
def St.finishBC (st : St) (cont : Option Nat) (old : List (Kind × Nat)) : St :=
  { st with log := st.log ++ st.breaks.filterMap (resolve st.pc cont), breaks := st.breaks.filter (kept cont) ++ old }

/-- core/kos_compiler.c:2122-2143 `finish_fallthrough`. -/
def St.finishFall (st : St) : St :=
  { st with
    log := st.log ++ (st.breaks.filter fun x => x.1 == .fall).map fun x => (x.2, st.pc)
    breaks := st.breaks.filter fun x => x.1 != .fall }

/-- core/kos_compiler.c:2145-2155 `push_try_scope`. -/
def Ctx.inLoop (x : Ctx) : Ctx := { x with last := match x.top with | some r => some r | none => x.last }

/-- core/kos_compiler.c:2926-2950 `break_continue_fallthrough`. -/
def genJump (x : Ctx) (k : Kind) (st : St) : St :=
  let st := match x.last with
    | some r => st.restoreCatch (some r)
    | none => st
  let e := st.n
  let st := st.emitJ .jmp
  { st with breaks := (k, e) :: st.breaks }

/-- core/kos_compiler.c:3159-3187 `update_child_scope_catch`. -/
def St.updateKids (st : St) (r : Nat) : St :=
  { st with
    log := st.log ++ (st.kids.filter fun x => x.1 == r).map fun x => (x.2, st.pc)
    kids := st.kids.filter fun x => x.1 != r }

/-- The tests of a `switch`, core/kos_compiler.c:3028-3096: an entry for each case, `none` for `default`. -/
def genTests (x : Ctx) : Cases → St → St × List (Option Nat)
  | .nil, st => (st, [])
  | .cons none _ _ rest, st =>
    match genTests x rest st with
    | (st, es) => (st, none :: es)
  | .cons (some i) _ _ rest, st =>
    let e := st.n
    match genTests x rest ((st.emit (.case i x.d (x.d + 1) x.env)).emitJ (.jcond true (x.d + 1))) with
    | (st, es) => (st, some e :: es)

/-- The jump after the tests is the jump to `default`. -/
def fillDefault (e : Nat) : List (Option Nat) → List (Option Nat)
  | [] => []
  | none :: es => some e :: es
  | some e' :: es => some e' :: fillDefault e es

def Cases.onlyDefault : Cases → Bool
  | .cons none _ _ .nil => true
  | _ => false

/-- core/kos_compiler.c:3357-3379: a copy of the deferred code, for one kind of jump which leaves the block. -/
def deferCopy (top : Option Nat) (f : St → St) (tryB : List (Kind × Nat)) (k : Kind) (st : St) : St :=
  let es := (tryB.filter fun x => x.1 == k).map (·.2)
  if es = [] then st
  else
    let st := f ((st.setAll es st.pc).restoreCatch top)
    let j := st.n
    let st := st.emitJ .jmp
    { st with breaks := (k, j) :: st.breaks }

/-- core/kos_compiler.c:3337-3381 -/
def deferCopies (top : Option Nat) (f : St → St) (tryB : List (Kind × Nat)) (st : St) : St :=
  deferCopy top f tryB .fall (deferCopy top f tryB .cont (deferCopy top f tryB .brk st))

/-- core/kos_compiler.c:3383-3395: a copy of the deferred code, for returning. -/
def deferReturn (x : Ctx) (r : Nat) (f : St → St) (tryR : List Nat) (st : St) : St :=
  if tryR = [] then st else genReturn x r (f ((st.setAll tryR st.pc).restoreCatch x.top))

mutual
/-- core/kos_compiler.c: `visit_node` on statements. -/
def comp (x : Ctx) : Stmt → St → St
  | .skip, st => st
  | .act i, st => st.emit (.eval i x.d x.env)
  | .seq a b, st => comp x b (comp x a st) -- 1603-1671
  | .ite c t, st => -- 1854-1891
    match genCond x c false st with
    | (st, J) =>
      let st := comp x t st
      st.setAll J st.pc
  | .itee c t e, st =>
    match genCond x c false st with
    | (st, J) =>
      let st := comp x t st
      let j := st.n
      let st := st.emitJ .jmp
      let st := st.setAll J st.pc
      let st := comp x e st
      st.set j st.pc
  | .while c b, st => -- 2207-2257
    if c.falsy then st
    else
      let old := st.breaks
      let start := st.pc
      match genCond x.inLoop c false { st with breaks := [] } with
      | (st, E) =>
        let body := st.pc
        let st := comp x.inLoop b st
        match genCond x.inLoop c true st with
        | (st, B) => ((st.setAll B body).setAll E st.pc).finishBC (some start) old
  | .repeat b c, st => -- 2157-2205
    let old := st.breaks
    let start := st.pc
    let st := comp x.inLoop b { st with breaks := [] }
    let test := st.pc
    if c.falsy then st.finishBC (some test) old
    else
      match genCond x.inLoop c true st with
      | (st, B) => (st.setAll B start).finishBC (some test) old
  | .forIn i j b, st => -- 2434-2638
    let old := st.breaks
    let st := { st with breaks := [] }.emit (.eval i x.d x.env)
    let e := st.n
    let st := st.emitJ .jmp
    let body := st.pc
    let st := comp x.inLoop b st
    let next := st.pc
    let e' := st.n
    let st := (st.emitJ (.next j x.env)).set e' body
    (st.set e next).finishBC (some next) old
  | .switch i cs, st => -- 2966-3157
    let old := st.breaks
    let st := { st with breaks := [] }.emit (.eval i x.d x.env)
    match cs with
    | .nil => { st with breaks := old }
    | .cons none b _ .nil => (comp x b st).finishBC none old
    | cs =>
      match genTests x cs st with
      | (st, es) =>
        let e := st.n
        let st := st.emitJ .jmp
        match compCases x cs (fillDefault e es) true st with
        | (st, fs) =>
          let st := if (dflt cs 0).isNone then st.set e st.pc else st
          (st.setAll fs st.pc).finishBC none old
  | .jump k, st => genJump x k st
  | .ret i, st => -- 1964-2012
    let reg := match x.top with | some r => r | none => x.d
    genReturn x reg (st.emit (.eval i reg x.env))
  | .throw i, st => (st.emit (.eval i x.d x.env)).emit (.throw x.d) -- 2037-2054
  | .assert c k, st => -- 2056-2089
    match genCond x c true st with
    | (st, J) =>
      let st := (st.emit (.eval k x.d x.env)).emit (.throw x.d)
      st.setAll J st.pc
  | .tryCatch b h, st => -- 3189-3303, 3400-3415
    let old := st.breaks
    let r := x.d
    let e := st.n
    let st := { st with breaks := [] }.emitJ (.catch r)
    let st := comp { x with tries := (r, false) :: x.tries, d := r + 1 } b st
    let st := st.restoreCatch x.top
    let j := st.n
    let st := st.emitJ .jmp
    let st := (st.updateKids r).set e st.pc
    let st := st.restoreCatch x.top
    let st := comp { x with d := r + 1, env := r :: x.env } h st
    let st := st.set j st.pc
    { st with breaks := st.breaks ++ old }
  | .tryDefer b f, st => -- 3189-3273, 3309-3415
    let oldB := st.breaks
    let oldR := st.returns
    let r := x.d
    let st := { st with breaks := [], returns := [] }.emit (.void r)
    let e := st.n
    let st := st.emitJ (.catch r)
    let st := comp { x with tries := (r, true) :: x.tries, d := r + 1 } b st
    let tryB := st.breaks
    let tryR := st.returns
    let st := { st with breaks := oldB, returns := oldR }
    let st := (st.updateKids r).set e st.pc
    let st := st.restoreCatch x.top
    let st := comp { x with d := r + 1 } f st
    let s := st.n
    let st := (st.emitJ (.jcond false r)).emit (.throw r)
    let st := deferCopies x.top (comp { x with d := r + 1 } f) tryB st
    let st := deferReturn x r (comp { x with d := r + 1 } f) tryR st
    st.set s st.pc

/-- The bodies of a `switch`, core/kos_compiler.c:3098-3139; also gives the jumps to the end. -/
def compCases (x : Ctx) : Cases → List (Option Nat) → Bool → St → St × List Nat
  | .nil, _, _, st => (st, [])
  | .cons _ b ft rest, es, first, st =>
    let st := st.setO es.head?.join
    let st := if first then st else st.finishFall
    let st := comp x b st
    if ft then compCases x rest es.tail false st
    else
      let e := st.n
      let st := st.emitJ .jmp
      match compCases x rest es.tail false st with
      | (st, fs) => (st, e :: fs)
end

/-- The code of a function: the body, and the `return` which the parser appends to it (core/kos_parser.c:457-459, similarly
core/kos_compiler.c:1527-1543 for the global scope). -/
def compFun (opt : Bool) (b : Stmt) : St :=
  let x : Ctx := { opt := opt }
  let st := comp x b {}
  (st.emit (.void 0)).emit (.ret 0)

/-- The finished code: targets are those set last. -/
def St.prog (st : St) : Prog := ⟨st.code, fun e => st.log.reverse.lookup e⟩

end Verif.Ctl
