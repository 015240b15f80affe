import Verif.Expr.Parse

/-!
# The grammar of expressions (doc/grammar.md:983–1222)

`G d cat c o w ts t`: the tokens `ts` are a phrase of category `cat` with the tree `t`.
* `c` tells whether the phrase is in a constructor or another member of a class.
* `o`: the phrase is part of the outermost expression, so that `+`, `-`, `(` and `[` must not
  be the first token on a line where they would continue it.
* `w`: the phrase ends with the body of a simple function literal, `x => …`.  Such a body
  goes on as far as possible, so nothing that would continue an expression may follow.

Operators of the same level are grouped to the left, and only the logical operators, where it
makes no difference, to the right.  The tree of `a in b` and `a propertyof b` has `b` first.
-/

namespace Verif.Expr

/-- A version of the grammar: `rules` as in the model of the parser, and two points in which
the documented grammar has more than the code. -/
structure Dialect where
  rules : Rules
  /-- `a << b << c` -/
  shiftChain : Bool
  /-- `{ a : 1,, b : 2 }` -/
  emptyProps : Bool

/-- doc/grammar.md -/
def Dialect.doc : Dialect := ⟨⟨false, false, false, false⟩, true, true⟩

/-- What the code does. -/
def Dialect.code : Dialect := ⟨Rules.code, false, false⟩

structure Ctx where
  ctor : Bool
  member : Bool

inductive Cat where
  | primary | member | unary | mul | add | bit (k : Op) | shift | arith | comparison
  | logic (k : Op) | logical | cond | stream | async | rhs
  | item | items | elements | props | fields | named | args | bound | plain | defs | params
deriving DecidableEq

def unaryOps : List Kind :=
  [.op .add, .op .sub, .op .not, .op .lognot, .kw .typeof, .kw .delete]
def mulOps : List Kind := [.op .mul, .op .div, .op .mod]
def addOps : List Kind := [.op .add, .op .sub]
def bitOps : List Op := [.and, .or, .xor]
def shiftOps : List Kind := [.op .shl, .op .shr, .op .shru]
def cmpOps : List Kind :=
  [.op .eq, .op .ne, .op .le, .op .ge, .op .lt, .op .gt, .kw .instanceof]
def swapOps : List Kind := [.kw .in, .kw .propertyof]
def logicOps : List Op := [.logand, .logor]

/-- Names of properties: identifiers, keywords and strings. -/
inductive Name : Kind → Prop where
  | ident (v : Nat) : Name (.ident v)
  | kw (k : Kw) : Name (.kw k)
  | str (v : Nat) : Name (.str v)

/-- Literals and other expressions of one token. -/
inductive Atom (c : Ctx) : Kind → Ast → Prop where
  | num (v : Nat) : Atom c (.num v) (.num v)
  | str (v : Nat) : Atom c (.str v) (.str (.str v))
  | ident (v : Nat) : Atom c (.ident v) (.ident v)
  | this : Atom c (.kw .this) (.leaf .this)
  | super : c.member = true → Atom c (.kw .super) (.leaf .superProto)
  | line : Atom c (.kw .line) (.leaf .line)
  | true : Atom c (.kw .true) (.bool (.kw .true))
  | false : Atom c (.kw .false) (.bool (.kw .false))
  | void : Atom c (.kw .void) .void
  | placeholder : Atom c (.kw .underscore) (.leaf .placeholder)

/-- What is called: `super` stands for the constructor of the base class, and can only be
called from a constructor. -/
inductive Called (c : Ctx) : Ast → Ast → Prop where
  | fn (f : Ast) : f.ty ≠ .superProto → Called c f f
  | super (f : Ast) : f.ty = .superProto → c.ctor = true → Called c f (.leaf .superCtor)

/-- A list of trees, as a tree. -/
def many (l : List Ast) : Ast := .mk .args none l

/-- A token that does not begin a line of the outermost expression. -/
def Fits (o : Bool) (t : Tok) : Prop := ¬(o = true ∧ t.eol = true)

inductive G (d : Dialect) : Cat → Ctx → Bool → Bool → Toks → Ast → Prop where
  -- PrimaryExpression and SimpleFunctionLiteral
  | atom {c o k t} (b : Bool) : Atom c k t → G d .primary c o false [⟨k, b⟩] t
  | paren {c o w ts t} (b b' : Bool) : G d .rhs c false w ts t →
      G d .primary c o false (⟨.sep .parenOpen, b⟩ :: ts ++ [⟨.sep .parenClose, b'⟩]) t
  | array {c o ts l} (b b' : Bool) : G d .elements c false false ts (many l) →
      G d .primary c o false (⟨.sep .squareOpen, b⟩ :: ts ++ [⟨.sep .squareClose, b'⟩]) (.array l)
  | object {c o ts l} (b b' : Bool) : G d .fields c false false ts (many l) →
      G d .primary c o false (⟨.sep .curlyOpen, b⟩ :: ts ++ [⟨.sep .curlyClose, b'⟩]) (.object l)
  | lambda1 {c o w ts t} (x : Nat) (b b' : Bool) : G d .rhs ⟨false, false⟩ false w ts t →
      G d .primary c o true (⟨.ident x, b⟩ :: ⟨.op .lambda, b'⟩ :: ts)
        (.lambda (.params [.ident x]) t)
  | lambda {c o w ps l ts t} (b b' b'' : Bool) : G d .params c false false ps (many l) →
      G d .rhs ⟨false, false⟩ false w ts t →
      G d .primary c o true
        (⟨.sep .parenOpen, b⟩ :: ps ++ ⟨.sep .parenClose, b'⟩ :: ⟨.op .lambda, b''⟩ :: ts)
        (.lambda (.params l) t)
  -- ArrayElement, UnnamedArgument
  | item {c o w ts t} : G d .rhs c o w ts t → G d .item c o false ts t
  | expand {c o w ts t} (b : Bool) : G d .rhs c o w ts t →
      G d .item c o false (ts ++ [⟨.op .more, b⟩]) (.expand t)
  | items1 {c o ts t} : G d .item c o false ts t → G d .items c o false ts (many [t])
  | items {c o as l ts t} (b : Bool) : G d .items c o false as (many l) →
      G d .item c o false ts t →
      G d .items c o false (as ++ ⟨.sep .comma, b⟩ :: ts) (many (l ++ [t]))
  | elements0 {c o} : G d .elements c o false [] (many [])
  | elements {c o ts t} : G d .items c o false ts t → G d .elements c o false ts t
  | elementsComma {c o ts t} (b : Bool) : G d .items c o false ts t →
      G d .elements c o false (ts ++ [⟨.sep .comma, b⟩]) t
  -- PropertyList
  | props1 {c o w k ts t} (b b' : Bool) : Name k → G d .rhs c o w ts t →
      G d .props c o false (⟨k, b⟩ :: ⟨.sep .colon, b'⟩ :: ts) (many [.prop k t])
  | props {c o w as l k ts t} (b b' b'' : Bool) : G d .props c o false as (many l) → Name k →
      G d .rhs c o w ts t →
      G d .props c o false
        (as ++ ⟨.sep .comma, b⟩ :: ⟨k, b'⟩ :: ⟨.sep .colon, b''⟩ :: ts)
        (many (l ++ [.prop k t]))
  | propsEmpty {c o ts t} (b : Bool) : d.emptyProps = true → G d .props c o false ts t →
      G d .props c o false (ts ++ [⟨.sep .comma, b⟩]) t
  | fields0 {c o} : G d .fields c o false [] (many [])
  | fields {c o ts t} : G d .props c o false ts t → G d .fields c o false ts t
  | fieldsComma {c o ts t} (b : Bool) : G d .props c o false ts t →
      G d .fields c o false (ts ++ [⟨.sep .comma, b⟩]) t
  -- ParameterList
  | plain1 {c o} (x : Nat) (b : Bool) : G d .plain c o false [⟨.ident x, b⟩] (many [.ident x])
  | plain {c o as l} (x : Nat) (b b' : Bool) : G d .plain c o false as (many l) →
      G d .plain c o false (as ++ [⟨.sep .comma, b⟩, ⟨.ident x, b'⟩]) (many (l ++ [.ident x]))
  | defs1 {c o w ts t} (x : Nat) (b b' : Bool) : G d .rhs c o w ts t →
      G d .defs c o false (⟨.ident x, b⟩ :: ⟨.op .set, b'⟩ :: ts)
        (many [.mk .assignment none [.ident x, t]])
  | defsPlain {c o w as l ts t} (x : Nat) (b b' b'' : Bool) : G d .plain c o false as (many l) →
      l.length ≤ 255 → G d .rhs c o w ts t →
      G d .defs c o false (as ++ ⟨.sep .comma, b⟩ :: ⟨.ident x, b'⟩ :: ⟨.op .set, b''⟩ :: ts)
        (many (l ++ [.mk .assignment none [.ident x, t]]))
  | defs {c o w as l ts t} (x : Nat) (b b' b'' : Bool) : G d .defs c o false as (many l) →
      G d .rhs c o w ts t →
      G d .defs c o false (as ++ ⟨.sep .comma, b⟩ :: ⟨.ident x, b'⟩ :: ⟨.op .set, b''⟩ :: ts)
        (many (l ++ [.mk .assignment none [.ident x, t]]))
  | params0 {c o} : G d .params c o false [] (many [])
  | params {c o cat ts t} : cat = .plain ∨ cat = .defs → G d cat c o false ts t →
      G d .params c o false ts t
  | paramsComma {c o cat ts t} (b : Bool) : d.rules.trailingParam = true →
      cat = .plain ∨ cat = .defs → G d cat c o false ts t →
      G d .params c o false (ts ++ [⟨.sep .comma, b⟩]) t
  | rest1 {c o} (x : Nat) (b b' : Bool) :
      G d .params c o false [⟨.ident x, b⟩, ⟨.op .more, b'⟩]
        (many [.mk .ellipsis none [.ident x]])
  | rest {c o cat ts l} (x : Nat) (b b' b'' : Bool) : cat = .plain ∨ cat = .defs →
      G d cat c o false ts (many l) →
      G d .params c o false
        (ts ++ [⟨.sep .comma, b⟩, ⟨.ident x, b'⟩, ⟨.op .more, b''⟩])
        (many (l ++ [.mk .ellipsis none [.ident x]]))
  -- ArgumentList
  | named1 {c o w ts t} (x : Nat) (b b' : Bool) : G d .rhs c o w ts t →
      G d .named c o false (⟨.ident x, b⟩ :: ⟨.op .set, b'⟩ :: ts) (many [.prop (.ident x) t])
  | named {c o w as l ts t} (x : Nat) (b b' b'' : Bool) : G d .named c o false as (many l) →
      G d .rhs c o w ts t →
      G d .named c o false (as ++ ⟨.sep .comma, b⟩ :: ⟨.ident x, b'⟩ :: ⟨.op .set, b''⟩ :: ts)
        (many (l ++ [.prop (.ident x) t]))
  | args0 {c o} : G d .args c o false [] (many [])
  | args {c o ts t} : G d .items c o false ts t → G d .args c o false ts t
  | argsNamed {c o ts l} : G d .named c o false ts (many l) →
      G d .args c o false ts (many [.named l])
  -- MemberExpression
  | member {c o w ts t} : G d .primary c o w ts t → G d .member c o w ts t
  | dot {c o ts t k} (b b' : Bool) : G d .member c o false ts t → Name k →
      G d .member c o false (ts ++ [⟨.op .dot, b⟩, ⟨k, b'⟩]) (.refine false t (.str k))
  | optDot {c o ts t k} (b b' b'' : Bool) : G d .member c o false ts t → Name k →
      G d .member c o false (ts ++ [⟨.op .dot, b⟩, ⟨.op .tri, b'⟩, ⟨k, b''⟩])
        (.refine true t (.str k))
  | index {c o w ts t ks k} (b b' : Bool) : G d .member c o false ts t →
      Fits o ⟨.sep .squareOpen, b⟩ → G d .rhs c false w ks k →
      G d .member c o false (ts ++ ⟨.sep .squareOpen, b⟩ :: ks ++ [⟨.sep .squareClose, b'⟩])
        (.refine false t k)
  | optIndex {c o w ts t ks k} (b b' b'' : Bool) : G d .member c o false ts t →
      Fits o ⟨.sep .squareOpen, b⟩ → G d .rhs c false w ks k →
      G d .member c o false
        (ts ++ ⟨.sep .squareOpen, b⟩ :: ⟨.op .tri, b'⟩ :: ks ++ [⟨.sep .squareClose, b''⟩])
        (.refine true t k)
  | bound0 {c o} : G d .bound c o false [] .void
  | bound {c o w ts t} : G d .rhs c o w ts t → G d .bound c o false ts t
  | slice {c o ts t as x bs y} (b b' b'' : Bool) : G d .member c o false ts t →
      Fits o ⟨.sep .squareOpen, b⟩ → G d .bound c false false as x →
      G d .bound c false false bs y →
      G d .member c o false
        (ts ++ ⟨.sep .squareOpen, b⟩ :: as ++ ⟨.sep .colon, b'⟩ :: bs
          ++ [⟨.sep .squareClose, b''⟩])
        (.slice t x y)
  | optSlice {c o ts t as x bs y} (b b' b'' b3 : Bool) : d.rules.optSlice = true →
      G d .member c o false ts t →
      Fits o ⟨.sep .squareOpen, b⟩ → G d .bound c false false as x →
      G d .bound c false false bs y →
      G d .member c o false
        (ts ++ ⟨.sep .squareOpen, b⟩ :: ⟨.op .tri, b3⟩ :: as ++ ⟨.sep .colon, b'⟩ :: bs
          ++ [⟨.sep .squareClose, b''⟩])
        (.slice t x y)
  | call {c o ts t f as l} (b b' : Bool) : G d .member c o false ts t → Called c t f →
      Fits o ⟨.sep .parenOpen, b⟩ → G d .args c false false as (many l) →
      G d .member c o false (ts ++ ⟨.sep .parenOpen, b⟩ :: as ++ [⟨.sep .parenClose, b'⟩])
        (.call f l)
  -- UnaryExpression
  | unary0 {c o w ts t} : G d .member c o w ts t → G d .unary c o w ts t
  | unary {c o w ts t k} (b : Bool) : k ∈ unaryOps →
      G d .unary c (o && !d.rules.unaryEol) w ts t →
      G d .unary c o w (⟨k, b⟩ :: ts) (.oper k [t])
  -- MultiplicativeExpression, AdditiveExpression
  | mul0 {c o w ts t} : G d .unary c o w ts t → G d .mul c o w ts t
  | mul {c o w as x k bs y} (b : Bool) : G d .mul c o false as x → k ∈ mulOps →
      G d .unary c o w bs y → G d .mul c o w (as ++ ⟨k, b⟩ :: bs) (.oper k [x, y])
  | add0 {c o w ts t} : G d .mul c o w ts t → G d .add c o w ts t
  | add {c o w as x k bs y} (b : Bool) : G d .add c o false as x → k ∈ addOps →
      Fits o ⟨k, b⟩ → G d .mul c o w bs y →
      G d .add c o w (as ++ ⟨k, b⟩ :: bs) (.oper k [x, y])
  -- BitwiseExpression
  | bit1 {c o w as x k bs y} (b : Bool) : k ∈ bitOps → G d .unary c o false as x →
      G d .unary c o w bs y →
      G d (.bit k) c o w (as ++ ⟨.op k, b⟩ :: bs) (.oper (.op k) [x, y])
  | bit {c o w as x k bs y} (b : Bool) : G d (.bit k) c o false as x →
      G d .unary c o w bs y →
      G d (.bit k) c o w (as ++ ⟨.op k, b⟩ :: bs) (.oper (.op k) [x, y])
  | shift1 {c o w as x k bs y} (b : Bool) : k ∈ shiftOps → G d .unary c o false as x →
      G d .unary c o w bs y → G d .shift c o w (as ++ ⟨k, b⟩ :: bs) (.oper k [x, y])
  | shift {c o w as x k bs y} (b : Bool) : d.shiftChain = true → k ∈ shiftOps →
      G d .shift c o false as x → G d .unary c o w bs y →
      G d .shift c o w (as ++ ⟨k, b⟩ :: bs) (.oper k [x, y])
  -- ArithBitwiseExpression
  | arith {c o w ts t} : G d .add c o w ts t → G d .arith c o w ts t
  | arithBit {c o w ts t} (k : Op) : G d (.bit k) c o w ts t → G d .arith c o w ts t
  | arithShift {c o w ts t} : G d .shift c o w ts t → G d .arith c o w ts t
  -- ComparisonExpression
  | cmp0 {c o w ts t} : G d .arith c o w ts t → G d .comparison c o w ts t
  | cmp {c o w as x k bs y} (b : Bool) : G d .arith c o false as x → k ∈ cmpOps →
      G d .arith c o w bs y → G d .comparison c o w (as ++ ⟨k, b⟩ :: bs) (.oper k [x, y])
  | swap {c o w as x k bs y} (b : Bool) : G d .arith c o false as x → k ∈ swapOps →
      G d .arith c o w bs y → G d .comparison c o w (as ++ ⟨k, b⟩ :: bs) (.oper k [y, x])
  -- LogicalExpression
  | logic1 {c o w as x k bs y} (b : Bool) : k ∈ logicOps → G d .comparison c o false as x →
      G d .comparison c o w bs y →
      G d (.logic k) c o w (as ++ ⟨.op k, b⟩ :: bs) (.oper (.op k) [x, y])
  | logic {c o w as x k bs y} (b : Bool) : G d .comparison c o false as x →
      G d (.logic k) c o w bs y →
      G d (.logic k) c o w (as ++ ⟨.op k, b⟩ :: bs) (.oper (.op k) [x, y])
  | logical0 {c o w ts t} : G d .comparison c o w ts t → G d .logical c o w ts t
  | logical {c o w ts t} (k : Op) : G d (.logic k) c o w ts t → G d .logical c o w ts t
  -- ConditionalExpression
  | cond0 {c o w ts t} : G d .logical c o w ts t → G d .cond c o w ts t
  | cond {c o w w' as x bs y cs z} (b b' : Bool) : G d .logical c o false as x →
      G d .cond c false w' bs y → G d .cond c o w cs z →
      G d .cond c o w (as ++ ⟨.op .tri, b⟩ :: bs ++ ⟨.sep .colon, b'⟩ :: cs)
        (.oper (.op .tri) [x, y, z])
  -- StreamExpression
  | stream0 {c o w ts t} : G d .cond c o w ts t → G d .stream c o w ts t
  | stream {c o w as x bs f g} (b : Bool) : G d .stream c o false as x →
      G d .cond c o w bs f → Called c f g →
      G d .stream c o w (as ++ ⟨.op .arrow, b⟩ :: bs) (.call g [x])
  -- RHSExpression
  | async {c o w ts t} (b : Bool) : G d .stream c o w ts t → t.ty = .invocation →
      G d .async c o w (⟨.kw .async, b⟩ :: ts) (.mk .async none [t])
  | rhs {c o w ts t} : G d .stream c o w ts t → G d .rhs c o w ts t
  | rhsAsync {c o w ts t} : G d .async c o w ts t → G d .rhs c o w ts t
  | yield {c o w ts t} (b : Bool) : c.ctor = false → G d .stream c o w ts t →
      G d .rhs c o w (⟨.kw .yield, b⟩ :: ts) (.mk .yield none [t])
  | yieldAsync {c o w ts t} (b : Bool) : c.ctor = false → G d .async c o w ts t →
      G d .rhs c o w (⟨.kw .yield, b⟩ :: ts) (.mk .yield none [t])

/-- Tokens which continue an expression in front of them. -/
def continuers : List Kind :=
  [.op .lambda, .op .dot, .sep .parenOpen, .sep .squareOpen]
  ++ mulOps ++ addOps ++ bitOps.map .op ++ shiftOps ++ cmpOps ++ swapOps ++ logicOps.map .op
  ++ [.op .tri, .op .arrow]

end Verif.Expr
