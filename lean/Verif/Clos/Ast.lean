/-
  Programs with nested functions, as they are after variables were resolved.

  The compiler of Kos turns the abstract syntax tree into bytecode after three
  passes: `kos_compiler_process_vars` (core/kos_compiler_vars.c) attaches to
  every identifier the variable which it names, `kos_optimize`
  (core/kos_compiler_optim.c) simplifies the tree and decides how functions are
  loaded, `kos_allocate_args` (core/kos_compiler_args.c) counts what each
  function takes from the functions around it.

  `E` is the part of the tree which matters for these decisions.  Names are
  already resolved: a use of a variable says how many functions it has to leave
  to reach the function which owns the variable (`i = 0` is a variable of the
  current function, which the code calls `is_local_var`), and which variable it
  is.  Functions, variables and uses of variables (nodes of the tree) have
  unique numbers, which stand for their addresses.

  Simplified: one parameter per function, no default values (a function with
  a used default value is never shared), no ellipsis, classes, generators or
  exceptions; statements and expressions are the same thing; blocks end where
  the scope of a `let` ends.  Uses of global (`public`) variables, modules and
  folded constants are not uses of variables here, the code does not count them
  either.
-/
namespace Verif.Clos

/-- Expressions and statements. -/
inductive E where
  | num (n : Int)
  /-- use of the variable `v` of the function `i` levels up; `r` is the node -/
  | ref (r i v : Nat)
  /-- assignment to a variable -/
  | set (i v : Nat) (e : E)
  | add (a b : E)
  | seq (a b : E)
  | ite (c a b : E)
  | whl (c b : E)
  | call (f a : E)
  /-- `fun(p) { body }` -/
  | fn (F p : Nat) (body : E)
  /-- `var v = e` followed by the rest of the block -/
  | letv (v : Nat) (e rest : E)
  /-- `const v = fun(p) { body }` followed by the rest of the block; `v` is
      visible in the body -/
  | letf (v F p : Nat) (body rest : E)
  deriving DecidableEq, Repr

/-- The function which a declaration binds to its variable, if its right-hand
    side is a function literal. -/
def E.fun? : E → Option Nat
  | .fn F _ _ => some F
  | _ => none

end Verif.Clos
