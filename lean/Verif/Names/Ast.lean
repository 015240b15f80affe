/-
  Programs as the pass which resolves names sees them.

  Simplified from the syntax tree of core/kos_ast.h: nodes which are treated
  alike by visit_node (kos_compiler_vars.c 1090-1229) are one constructor here.
  Names are numbers.  Each use and each declaration of a name carries the number
  of its node, each function the number of its node.
-/
namespace Verif.Names

/-- How a variable is declared. -/
structure Kind where
  /-- `const` -/
  const : Bool
  /-- `public`, or a global of the module known before -/
  glob : Bool
  deriving DecidableEq, Repr

/-- A declared name: node and name. -/
structure Decl where
  node : Nat
  name : Nat
  deriving DecidableEq, Repr

inductive E where
  /-- NT_EMPTY, literals, NT_PLACEHOLDER -/
  | nop
  /-- children of a node, one after another (visit_child_nodes, 442-451) -/
  | op (a b : E)
  /-- NT_IDENTIFIER as a value -/
  | use (n x : Nat)
  /-- an identifier in NT_LEFT_HAND_SIDE, followed by the rest of the assignment -/
  | asg (n x : Nat) (e : E)
  /-- NT_ASSIGNMENT, NT_MULTI_ASSIGNMENT and NT_IN with NT_VAR or NT_CONST:
      variables and their value -/
  | decl (k : Kind) (xs : List Decl) (e : E)
  /-- `fun x ...`, `class x ...`, `const x = fun ...`, `const x = class ...`:
      the name is visible in the functions of the literal -/
  | self (k : Kind) (x : Decl) (e : E)
  /-- NT_FUNCTION_LITERAL, NT_CONSTRUCTOR_LITERAL: parameters, body, values of
      default parameters -/
  | fn (f : Nat) (ps : List Decl) (body defs : E)
  /-- NT_CLASS_LITERAL: the `extends` clause, properties and constructor -/
  | cls (ext members : E)
  /-- properties of a class, one after another; those which are function
      literals are methods -/
  | mem (a b : E)
  /-- NT_SCOPE and other nodes with a scope; `d` tells that the scope was made
      for the statements behind `defer` -/
  | scope (d : Bool) (e : E)
  /-- NT_CATCH: the variable and the block -/
  | catch (const : Bool) (x : Decl) (h : E)
  deriving Repr

/-- Errors and the node at fault.  kos_compiler_vars.c 20-28 -/
inductive Err where
  | undefined (n : Nat)
  | redefined (n : Nat)
  | constAssign (n : Nat)
  deriving DecidableEq, Repr

end Verif.Names
