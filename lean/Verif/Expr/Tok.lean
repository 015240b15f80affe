/-!
# Tokens and syntax trees (core/kos_lexer.h, core/kos_ast.h)

A token is its kind and whether an end of line comes before it (`had_eol`, kos_parser.c:77–109;
comments and ends of lines are no tokens of their own here).  Names, numbers and strings are
numbers, which only have to be different for different texts.

Simplifications: positions are left out; a node of the tree keeps its token only if the
token matters for what the node means; `NT_LANDMARK` and the names of functions are left out.
-/

namespace Verif.Expr

/-- `KOS_OPERATOR_TYPE`, kos_lexer.h:91–150 -/
inductive Op where
  | add | sub | mul | div | mod
  | not | lognot
  | and | or | xor
  | shl | shr | shru | logand | logor | tri | dot | more | arrow | lambda
  | eq | ne | ge | gt | le | lt
  | set | setAdd | setSub | setMul | setDiv | setMod | setAnd | setOr | setXor
  | setShl | setShr | setShru
deriving DecidableEq, Repr

/-- The values of `KOS_OPERATOR_TYPE`. -/
def Op.code : Op → Nat
  | .add => 0xC0 | .sub => 0xC1 | .mul => 0x89 | .div => 0x88 | .mod => 0x8A
  | .not => 0x40 | .lognot => 0x41
  | .and => 0x20 | .or => 0x21 | .xor => 0x22
  | .shl => 0x01 | .shr => 0x02 | .shru => 0x03 | .logand => 0x04 | .logor => 0x05
  | .tri => 0x06 | .dot => 0x07 | .more => 0x08 | .arrow => 0x09 | .lambda => 0x0A
  | .eq => 0x28 | .ne => 0x29 | .ge => 0x2A | .gt => 0x2B | .le => 0x2C | .lt => 0x2D
  | .set => 0x10 | .setAdd => 0x11 | .setSub => 0x12 | .setMul => 0x13 | .setDiv => 0x14
  | .setMod => 0x15 | .setAnd => 0x16 | .setOr => 0x17 | .setXor => 0x18 | .setShl => 0x19
  | .setShr => 0x1A | .setShru => 0x1B

/-- The keywords which matter in expressions, kos_lexer.h:41–89; the rest are `other`. -/
inductive Kw where
  | underscore | line | async | cls | delete | «do» | «false» | «fun» | «in» | instanceof
  | propertyof | super | this | «true» | typeof | void | yield
  | other (n : Nat)
deriving DecidableEq, Repr

/-- `KOS_SEPARATOR_TYPE`, kos_lexer.h:152–163 -/
inductive Sep where
  | parenOpen | parenClose | comma | colon | semicolon
  | squareOpen | squareClose | curlyOpen | curlyClose
deriving DecidableEq, Repr

inductive Kind where
  | eof
  | ident (v : Nat)
  | kw (k : Kw)
  | num (v : Nat)
  | str (v : Nat)
  | op (o : Op)
  | sep (s : Sep)
deriving DecidableEq, Repr

structure Tok where
  kind : Kind
  /-- an end of line comes before the token -/
  eol : Bool
deriving DecidableEq, Repr

abbrev Toks := List Tok

/-- `KOS_NODE_TYPE`, kos_ast.h:10–68, as far as expressions need it.  `args` stands for the
arguments of an invocation before they are appended to its node. -/
inductive NT where
  | refinement | optRefinement | slice | invocation | operator | yield | async
  | assignment | ellipsis | expand | property | namedArguments | parameters
  | scope | «return» | args
  | placeholder | identifier | numeric | string | this | superCtor | superProto | line
  | bool | void | function | array | object
deriving DecidableEq, Repr

/-- `KOS_AST_NODE` -/
inductive Ast where
  | mk (ty : NT) (tok : Option Kind) (kids : List Ast)

def Ast.ty : Ast → NT
  | .mk t _ _ => t

def Ast.kids : Ast → List Ast
  | .mk _ _ l => l

namespace Ast

def leaf (t : NT) : Ast := .mk t none []
def void : Ast := leaf .void
def num (v : Nat) : Ast := .mk .numeric (some (.num v)) []
def ident (v : Nat) : Ast := .mk .identifier (some (.ident v)) []
def bool (k : Kind) : Ast := .mk .bool (some k) []
/-- A string, or the name of a property. -/
def str (k : Kind) : Ast := .mk .string (some k) []
/-- The token tells which operator it is. -/
def oper (k : Kind) (l : List Ast) : Ast := .mk .operator (some k) l
def call (f : Ast) (args : List Ast) : Ast := .mk .invocation none (f :: args)
def params (l : List Ast) : Ast := .mk .parameters none l
def lambda (ps body : Ast) : Ast :=
  .mk .function none [ps, .mk .scope none [.mk .return none [body]]]
def prop (k : Kind) (v : Ast) : Ast := .mk .property none [str k, v]
def expand (e : Ast) : Ast := .mk .expand none [e]
def array (l : List Ast) : Ast := .mk .array none l
def object (l : List Ast) : Ast := .mk .object none l
def named (l : List Ast) : Ast := .mk .namedArguments none [object l]
def refine (opt : Bool) (e k : Ast) : Ast :=
  .mk (if opt then .optRefinement else .refinement) none [e, k]
def slice (e a b : Ast) : Ast := .mk .slice none [e, a, b]

end Ast

end Verif.Expr
