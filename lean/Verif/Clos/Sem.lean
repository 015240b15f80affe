/-
  What programs with nested functions do: what they mean, and what the compiled
  program does.

  `eval` executes a program.  `share` tells for which functions the literal is
  compiled to LOAD.CONST, `flag` which uses of variables were replaced by
  LOAD.CONST of the function held by the variable.  With `share` and `flag`
  false everywhere this is what a program means: each execution of a function
  literal gives a new function, which refers to the variables of the calls of
  outer functions during which it was created.

  Compiled code:  LOAD.CONST and LOAD.FUN are kos_vm.c 1513-1547, BIND and
  BIND.SELF are kos_vm.c 3000-3077, the values of bound scopes are copied to
  registers when a function is called, kos_vm.c 669-692.

  Simplified: a function object is bound to the list of all outer frames; the
  code binds only those which are used (`gen_binds`, kos_compiler.c
  5486-5555).  An object which is not shared is not visible to anyone before
  it is bound, so it is a value here.
-/
import Verif.Clos.Ast

namespace Verif.Clos

/-- Values. -/
inductive Val where
  | num (n : Int)
  /-- a function object of its own, and the frames to which it is bound -/
  | clo (F p : Nat) (body : E) (env : List Nat)
  /-- the object of a function in the table of constants of the module -/
  | cst (F p : Nat) (body : E)
  deriving DecidableEq, Repr

/-- Memory: frames of calls, and what objects in the table of constants are
    bound to. -/
structure Mem where
  mem : Nat → Nat → Option Val
  next : Nat
  bound : Nat → Option (List Nat)

inductive Res where
  | ok (v : Val) (m : Mem)
  | err
  /-- not finished -/
  | out

/-- Function literals which variables hold, for uses replaced by LOAD.CONST. -/
abbrev Table := Nat → Option (Nat × Nat × E)

def store (m : Mem) (φ v : Nat) (x : Val) : Mem :=
  { m with mem := fun φ' v' => if φ' = φ ∧ v' = v then some x else m.mem φ' v' }

/-- A new frame for a call, with the argument in it. -/
def enter (m : Mem) (p : Nat) (x : Val) : Mem :=
  store { m with next := m.next + 1 } m.next p x

/-- Value of a function literal, and the effect of BIND. -/
def makeFun (share : Nat → Bool) (F p : Nat) (b : E) (env : List Nat) (m : Mem) : Val × Mem :=
  if share F then
    (.cst F p b, { m with bound := fun G => if G = F then some env else m.bound G })
  else (.clo F p b env, m)

def readVar (env : List Nat) (i v : Nat) (m : Mem) : Option Val :=
  match env[i]? with
  | none => none
  | some φ => m.mem φ v

/-- Value of a use of a variable. -/
def evalRef (flag : Nat → Bool) (tab : Table) (env : List Nat) (r i v : Nat) (m : Mem) : Res :=
  if flag r then
    match tab v with
    | some (F, p, b) => .ok (.cst F p b) m
    | none => .err
  else
    match readVar env i v m with
    | some x => .ok x m
    | none => .err

def writeVar (env : List Nat) (i v : Nat) (x : Val) (m : Mem) : Res :=
  match env[i]? with
  | none => .err
  | some φ => .ok x (store m φ v x)

/-- Code, argument name and environment of a call. -/
def callee (m : Mem) : Val → Option (Nat × E × List Nat)
  | .num _ => none
  | .clo _ p b env => some (p, b, env)
  | .cst F p b => (m.bound F).map (fun env => (p, b, env))

def truthy : Val → Bool
  | .num n => n ≠ 0
  | _ => true

def addVal : Val → Val → Option Val
  | .num a, .num b => some (.num (a + b))
  | _, _ => none

def Res.bind (x : Res) (f : Val → Mem → Res) : Res :=
  match x with
  | .ok v m => f v m
  | .err => .err
  | .out => .out

/-- Stores in the frame of the current call. -/
def letVar (env : List Nat) (v : Nat) (x : Val) (m : Mem) (k : Mem → Res) : Res :=
  match env with
  | [] => .err
  | φ :: _ => k (store m φ v x)

/-- Execution; `env` are the frame of the current call and the frames of the
    outer functions. -/
def eval (share flag : Nat → Bool) (tab : Table) : Nat → List Nat → E → Mem → Res
  | 0, _, _, _ => .out
  | _ + 1, _, .num n, m => .ok (.num n) m
  | _ + 1, env, .ref r i v, m => evalRef flag tab env r i v m
  | n + 1, env, .set i v e, m =>
    (eval share flag tab n env e m).bind (fun x m1 => writeVar env i v x m1)
  | n + 1, env, .add a b, m =>
    (eval share flag tab n env a m).bind (fun x m1 =>
      (eval share flag tab n env b m1).bind (fun y m2 =>
        match addVal x y with
        | some z => .ok z m2
        | none => .err))
  | n + 1, env, .seq a b, m =>
    (eval share flag tab n env a m).bind (fun _ m1 => eval share flag tab n env b m1)
  | n + 1, env, .ite c a b, m =>
    (eval share flag tab n env c m).bind (fun x m1 =>
      if truthy x then eval share flag tab n env a m1 else eval share flag tab n env b m1)
  | n + 1, env, .whl c b, m =>
    (eval share flag tab n env c m).bind (fun x m1 =>
      if truthy x then
        (eval share flag tab n env b m1).bind (fun _ m2 =>
          eval share flag tab n env (.whl c b) m2)
      else .ok x m1)
  | n + 1, env, .call f a, m =>
    (eval share flag tab n env f m).bind (fun g m1 =>
      (eval share flag tab n env a m1).bind (fun x m2 =>
        match callee m2 g with
        | none => .err
        | some (p, b, env') => eval share flag tab n (m2.next :: env') b (enter m2 p x)))
  | _ + 1, env, .fn F p b, m =>
    .ok (makeFun share F p b env m).1 (makeFun share F p b env m).2
  | n + 1, env, .letv v e rest, m =>
    (eval share flag tab n env e m).bind (fun x m1 =>
      letVar env v x m1 (eval share flag tab n env rest))
  | n + 1, env, .letf v F p b rest, m =>
    letVar env v (makeFun share F p b env m).1 (makeFun share F p b env m).2
      (eval share flag tab n env rest)

/-- Memory before the program starts: frame 0 is that of the global scope. -/
def Mem.start : Mem where
  mem := fun _ _ => none
  next := 1
  bound := fun _ => none

/-- What is seen of an execution. -/
inductive Obs where
  | num (n : Int)
  | function
  | err
  | out
  deriving DecidableEq, Repr

def Res.obs : Res → Obs
  | .ok (.num n) _ => .num n
  | .ok _ _ => .function
  | .err => .err
  | .out => .out

end Verif.Clos
