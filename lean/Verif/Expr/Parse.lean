import Verif.Expr.Tok

/-!
# Parsing of expressions (core/kos_parser.c:298–376, 471–580, 838–1947)

`parser->token` with `unget` set is the first token of the list; reading a token drops it.
`ast_depth` and `unary_depth` are the same after a function as before it, so they are
arguments.  `had_eol` belongs to the token.

Not modelled: interpolated strings, `fun`, `class` and `async do` (which need statements;
they are errors here), errors of the lexer, running out of memory, which message an error has.

`Rules` has four points in which the code accepts more than doc/grammar.md describes;
`Rules.code` is the code.  The other values are only used to show what the documented grammar
does not accept.
-/

namespace Verif.Expr

inductive Err where
  | syntax
  /-- KOS_MAX_AST_DEPTH is exceeded -/
  | depth
  /-- the model ran out of steps; never occurs -/
  | fuel
deriving DecidableEq, Repr

inductive Res (α : Type) where
  | ok (a : α) (rest : Toks)
  | err (e : Err)

def Res.andThen {α β : Type} : Res α → (α → Toks → Res β) → Res β
  | .ok a r, f => f a r
  | .err e, _ => .err e

/-- What the code accepts beyond the documented grammar. -/
structure Rules where
  /-- behind a unary operator, `(` and `[` may be the first token of a line -/
  unaryEol : Bool
  /-- `[?` may begin a slice; the `?` is ignored -/
  optSlice : Bool
  /-- a comma may end a list of parameters -/
  trailingParam : Bool
  /-- an operator which the body of a simple function literal cannot take may follow it;
  the whole literal becomes its left operand -/
  bodyResume : Bool
deriving DecidableEq

def Rules.code : Rules := ⟨true, true, true, true⟩

structure Cfg where
  rules : Rules
  /-- KOS_MAX_AST_DEPTH -/
  max : Nat

/-- The part of `KOS_PARSER_STATE` which matters here, and `ast_depth`. -/
structure Env where
  ctor : Bool
  member : Bool
  depth : Nat
  unary : Nat

abbrev P := Env → Toks → Res Ast

def eofTok : Tok := ⟨.eof, false⟩

def peek : Toks → Tok
  | [] => eofTok
  | t :: _ => t

def Tok.isOp (t : Tok) (o : Op) : Bool := decide (t.kind = .op o)
def Tok.isSep (t : Tok) (s : Sep) : Bool := decide (t.kind = .sep s)
def Tok.isKw (t : Tok) (k : Kw) : Bool := decide (t.kind = .kw k)

def Kind.code : Kind → Nat
  | .op o => o.code
  | _ => 0

/-- `token.op`: 0 for other tokens. -/
def Tok.op (t : Tok) : Nat := t.kind.code

/-- Tokens which continue an expression in front of them (for `Rules`). -/
def continues : Kind → Bool
  | .sep .parenOpen | .sep .squareOpen => true
  | .kw .in | .kw .instanceof | .kw .propertyof => true
  | .op o =>
    match o with
    | .not | .lognot | .more => false
    | o => decide (o.code &&& 0xF0 ≠ 0x10)
  | _ => false

/-- `increase_ast_depth`, 172–184 -/
def deeper {α : Type} (c : Cfg) (e : Env) (k : Env → Res α) : Res α :=
  if e.depth + 1 > c.max then .err .depth else k { e with depth := e.depth + 1 }

/-- `assume_separator`, 120–170, for a separator other than the semicolon. -/
def assume {α : Type} (s : Sep) (ts : Toks) (k : Toks → Res α) : Res α :=
  if (peek ts).isSep s then k ts.tail else .err .syntax

def Env.inner (e : Env) : Env := { e with unary := e.unary + 1 }

/-- The end of `parameters`, 371–372. -/
def closeParams (acc : List Ast) (ts : Toks) : Res Ast :=
  assume .parenClose ts fun r => .ok (.params acc) r

/-- `parameters`, 298–376: the loop; `nd` is `num_non_def`, `hd` is `has_defaults`. -/
def paramLoop (c : Cfg) (rhs : P) (e : Env) : Nat → Nat → Bool → List Ast → Toks → Res Ast
  | 0, _, _, _, _ => .err .fuel
  | f + 1, nd, hd, acc, ts =>
    let next (nd : Nat) (hd : Bool) (acc : List Ast) (r : Toks) : Res Ast :=
      if (peek r).isSep .comma then
        if (peek r.tail).isSep .parenClose && !c.rules.trailingParam then .err .syntax
        else paramLoop c rhs e f nd hd acc r.tail
      else closeParams acc r
    match (peek ts).kind with
    | .ident x =>
      if (peek ts.tail).op = 0x10 then
        if nd > 255 then .err .syntax
        else (rhs e ts.tail.tail).andThen fun v r =>
          next nd true (acc ++ [.mk .assignment none [.ident x, v]]) r
      else if (peek ts.tail).isOp .more then
        closeParams (acc ++ [.mk .ellipsis none [.ident x]]) ts.tail.tail
      else if hd then .err .syntax
      else next (nd + 1) hd (acc ++ [.ident x]) ts.tail
    | _ => closeParams acc ts

/-- `is_lambda_literal`, 471–517; `ts` is behind the parenthesis. -/
def isLambda (ts : Toks) : Bool :=
  match (peek ts).kind with
  | .sep .parenClose => (peek ts.tail).isOp .lambda
  | .ident _ =>
    (peek ts.tail).op = 0x10 || (peek ts.tail).isOp .more || (peek ts.tail).isSep .comma
      || ((peek ts.tail).isSep .parenClose && (peek ts.tail.tail).isOp .lambda)
  | _ => false

/-- `lambda_literal_body`, 519–559; `ts` is behind `=>`. -/
def lambdaBody (c : Cfg) (rhs : P) (e : Env) (ps : Ast) (ts : Toks) : Res Ast :=
  (rhs ⟨false, false, e.depth, 1⟩ ts).andThen fun b r =>
    if !c.rules.bodyResume && continues (peek r).kind then .err .syntax
    else .ok (.lambda ps b) r

/-- `lambda_literal`, 561–580; `ts` is behind the parenthesis. -/
def lambdaLit (c : Cfg) (rhs : P) (e : Env) (ts : Toks) : Res Ast :=
  (paramLoop c rhs e (ts.length + 1) 0 false [] ts).andThen fun ps r =>
    if (peek r).isOp .lambda then lambdaBody c rhs e ps r.tail else .err .syntax

/-- `NT_EXPAND`, 860–870 and 1863–1877: the element and what is left. -/
def expanded (v : Ast) (r : Toks) : Ast × Toks :=
  if (peek r).isOp .more then (.expand v, r.tail) else (v, r)

/-- `array_literal`, 838–882; `ts` is behind the bracket. -/
def arrayLoop (rhs : P) (e : Env) : Nat → List Ast → Toks → Res Ast
  | 0, _, _ => .err .fuel
  | f + 1, acc, ts =>
    if (peek ts).isSep .squareClose then .ok (.array acc) ts.tail
    else (rhs e ts).andThen fun v r =>
      if (peek (expanded v r).2).isSep .comma then
        arrayLoop rhs e f (acc ++ [(expanded v r).1]) (expanded v r).2.tail
      else assume .squareClose (expanded v r).2 fun r' => .ok (.array (acc ++ [(expanded v r).1])) r'

/-- The name of a property, 915–930 and 1667–1680. -/
def isName : Kind → Bool
  | .ident _ => true
  | .kw _ => true
  | .str _ => true
  | _ => false

/-- `object_literal`, 884–960; `ts` is behind the bracket. -/
def objectLoop (rhs : P) (e : Env) : Nat → Bool → List Ast → Toks → Res Ast
  | 0, _, _, _ => .err .fuel
  | f + 1, comma, acc, ts =>
    if (peek ts).isSep .comma then
      if comma then .err .syntax else objectLoop rhs e f true acc ts.tail
    else if (peek ts).isSep .curlyClose then .ok (.object acc) ts.tail
    else if !comma then .err .syntax
    else if isName (peek ts).kind then
      assume .colon ts.tail fun r =>
        (rhs e r).andThen fun v r' => objectLoop rhs e f false (acc ++ [.prop (peek ts).kind v]) r'
    else .err .syntax

/-- `primary_expr`, 962–1077 -/
def primary (c : Cfg) (rhs : P) : P := fun e ts =>
  match (peek ts).kind with
  | .num v => .ok (.num v) ts.tail
  | .str v => .ok (.str (.str v)) ts.tail
  | .ident x =>
    if (peek ts.tail).isOp .lambda then
      lambdaBody c rhs e.inner (.params [.ident x]) ts.tail.tail
    else .ok (.ident x) ts.tail
  | .kw .this => .ok (.leaf .this) ts.tail
  | .kw .super => if e.member then .ok (.leaf .superProto) ts.tail else .err .syntax
  | .kw .line => .ok (.leaf .line) ts.tail
  | .kw .true => .ok (.bool (.kw .true)) ts.tail
  | .kw .false => .ok (.bool (.kw .false)) ts.tail
  | .kw .void => .ok .void ts.tail
  | .kw .underscore => .ok (.leaf .placeholder) ts.tail
  | .sep .squareOpen => arrayLoop rhs e.inner (ts.length + 1) [] ts.tail
  | .sep .curlyOpen => objectLoop rhs e.inner (ts.length + 1) true [] ts.tail
  | .sep .parenOpen =>
    if isLambda ts.tail then lambdaLit c rhs e.inner ts.tail
    else (rhs e.inner ts.tail).andThen fun v r => assume .parenClose r fun r' => .ok v r'
  | _ => .err .syntax

/-- `refinement_identifier`, 1649–1685; `ts` is behind the dot. -/
def refIdent (t : Ast) (ts : Toks) : Res Ast :=
  let opt := (peek ts).isOp .tri
  let r := if opt then ts.tail else ts
  if isName (peek r).kind then .ok (.refine opt t (.str (peek r).kind)) r.tail
  else .err .syntax

/-- The second part of a slice, 1719–1734 and 1750–1762; `ts` is behind the colon. -/
def sliceEnd (rhs : P) (e : Env) (t a : Ast) (ts : Toks) : Res Ast :=
  if (peek ts).isSep .squareClose then .ok (.slice t a .void) ts.tail
  else (rhs e ts).andThen fun b r => assume .squareClose r fun r' => .ok (.slice t a b) r'

/-- `refinement_expr`, 1687–1774; `ts` is behind the bracket. -/
def refExpr (c : Cfg) (rhs : P) (e : Env) (t : Ast) (ts : Toks) : Res Ast :=
  let opt := (peek ts).isOp .tri
  let r := if opt then ts.tail else ts
  let slices := !opt || c.rules.optSlice
  if (peek r).isSep .squareClose then .err .syntax
  else if (peek r).isSep .colon then
    if slices then sliceEnd rhs e t .void r.tail else .err .syntax
  else (rhs e r).andThen fun a r' =>
    if (peek r').isSep .colon then
      if slices then sliceEnd rhs e t a r'.tail else .err .syntax
    else assume .squareClose r' fun r'' => .ok (.refine opt t a) r''

/-- The arguments of an invocation without names, 1853–1895. -/
def argLoop (rhs : P) (e : Env) (f : Ast) : Nat → List Ast → Toks → Res Ast
  | 0, _, _ => .err .fuel
  | n + 1, acc, ts =>
    (rhs e ts).andThen fun v r =>
      if (peek (expanded v r).2).isSep .parenClose then
        .ok (.call f (acc ++ [(expanded v r).1])) (expanded v r).2.tail
      else assume .comma (expanded v r).2 fun r' => argLoop rhs e f n (acc ++ [(expanded v r).1]) r'

/-- The named arguments of an invocation, 1776–1805 and 1853–1895. -/
def namedLoop (rhs : P) (e : Env) (f : Ast) : Nat → List Ast → Toks → Res Ast
  | 0, _, _ => .err .fuel
  | n + 1, acc, ts =>
    match (peek ts).kind with
    | .ident x =>
      if (peek ts.tail).isOp .set then
        (rhs e ts.tail.tail).andThen fun v r =>
          if (peek r).isSep .parenClose then
            .ok (.call f [.named (acc ++ [.prop (.ident x) v])]) r.tail
          else assume .comma r fun r' => namedLoop rhs e f n (acc ++ [.prop (.ident x) v]) r'
      else .err .syntax
    | _ => .err .syntax

/-- The function of an invocation, 1812–1824 and 1488–1499: `super` becomes the constructor
of the base class. -/
def callee (e : Env) (f : Ast) : Option Ast :=
  if f.ty = .superProto then
    if e.ctor then some (.leaf .superCtor) else none
  else some f

def isIdent : Kind → Bool
  | .ident _ => true
  | _ => false

/-- `invocation`, 1807–1900; `ts` is behind the parenthesis. -/
def invocation (rhs : P) (e : Env) (t : Ast) (ts : Toks) : Res Ast :=
  match callee e t with
  | none => .err .syntax
  | some f =>
    if (peek ts).isSep .parenClose then .ok (.call f []) ts.tail
    else if isIdent (peek ts).kind && (peek ts.tail).isOp .set then
      namedLoop rhs e f (ts.length + 1) [] ts
    else argLoop rhs e f (ts.length + 1) [] ts

/-- The loop of `member_expr`, 1911–1940. -/
def memberLoop (c : Cfg) (rhs : P) (e : Env) : Nat → Ast → Toks → Res Ast
  | 0, _, _ => .err .fuel
  | f + 1, t, ts =>
    if (peek ts).isOp .dot then
      (refIdent t ts.tail).andThen fun t' r => memberLoop c rhs e f t' r
    else if (peek ts).isSep .squareOpen then
      if (peek ts).eol && e.unary == 1 then .err .syntax
      else (refExpr c rhs e t ts.tail).andThen fun t' r => memberLoop c rhs e f t' r
    else if (peek ts).isSep .parenOpen then
      if (peek ts).eol && e.unary == 1 then .err .syntax
      else (invocation rhs e t ts.tail).andThen fun t' r => memberLoop c rhs e f t' r
    else .ok t ts

/-- `member_expr`, 1902–1947 -/
def member (c : Cfg) (rhs : P) : P := fun e ts =>
  (primary c rhs e ts).andThen fun t r => memberLoop c rhs e.inner (r.length + 1) t r

/-- Whether a token is a unary operator, 1087–1089. -/
def isUnary (t : Tok) : Bool := t.op &&& 0x40 ≠ 0 || t.isKw .typeof || t.isKw .delete

/-- `unary_expr`, 1079–1119 -/
def unary (c : Cfg) (rhs : P) : Nat → P
  | 0, _, _ => .err .fuel
  | f + 1, e, ts =>
    if isUnary (peek ts) then
      deeper c e fun e' =>
        (unary c rhs f (if c.rules.unaryEol then e'.inner else e') ts.tail).andThen fun t r =>
          .ok (.oper (peek ts).kind [t]) r
    else member c rhs e ts

/-- The check for `+` and `-` at the beginning of a line, 1138–1144 and 1166–1170. -/
def badEol (e : Env) (t : Tok) : Bool := t.eol && e.unary == 0

/-- State of the loop of `arithm_bitwise_expr`: the operator and the left operand in `*ret`,
`node`, and `last_op`. -/
structure Ar where
  op : Kind
  left : Ast
  node : Ast
  last : Nat

/-- The loop over `*`, `/` and `%`, 1185–1226. -/
def mulLoop (c : Cfg) (un : P) : Nat → Env → Ar → Toks → Res Ar
  | 0, _, _, _ => .err .fuel
  | f + 1, e, a, ts =>
    if (peek ts).op &&& 0xF8 = 0x88 then
      deeper c e fun e' =>
        (un e' ts.tail).andThen fun y r =>
          if a.last &&& 0xF8 = 0x88 then
            mulLoop c un f e' ⟨(peek ts).kind, .oper a.op [a.left, a.node], y, (peek ts).op⟩ r
          else mulLoop c un f e' ⟨a.op, a.left, .oper (peek ts).kind [a.node, y], a.last⟩ r
    else .ok a ts

/-- The loop over the operators of arithmetic, 1155–1231. -/
def arLoop (c : Cfg) (un : P) : Nat → Env → Ar → Toks → Res Ast
  | 0, _, _, _ => .err .fuel
  | f + 1, e, a, ts =>
    deeper c e fun e' =>
      if (peek ts).isOp .add || (peek ts).isOp .sub then
        if badEol e (peek ts) then .err .syntax
        else (un e' ts.tail).andThen fun y r =>
          arLoop c un f e' ⟨(peek ts).kind, .oper a.op [a.left, a.node], y, (peek ts).op⟩ r
      else if (peek ts).op &&& 0xF8 = 0x88 then
        (mulLoop c un (ts.length + 1) e' a ts).andThen fun a' r => arLoop c un f e' a' r
      else if (peek ts).op &&& 0xF8 = 0x20 then .err .syntax
      else .ok (.oper a.op [a.left, a.node]) ts

/-- The loop over one bitwise operator, 1252–1287. -/
def bitLoop (c : Cfg) (un : P) (op : Nat) : Nat → Env → Ast → Toks → Res Ast
  | 0, _, _, _ => .err .fuel
  | f + 1, e, x, ts =>
    if (peek ts).op = op then
      deeper c e fun e' =>
        (un e' ts.tail).andThen fun y r => bitLoop c un op f e' (.oper (peek ts).kind [x, y]) r
    else if (peek ts).op &&& 0xF8 = 0x20 || (peek ts).op &&& 0xF8 = 0x80 || (peek ts).isOp .shl
        || (peek ts).isOp .shr || (peek ts).isOp .shru then .err .syntax
    else .ok x ts

/-- `arithm_bitwise_expr`, 1121–1306 -/
def arith (c : Cfg) (un : P) : P := fun e ts =>
  (un e ts).andThen fun x r =>
    if (peek r).op &&& 0x80 ≠ 0 then
      if ((peek r).isOp .add || (peek r).isOp .sub) && badEol e (peek r) then .err .syntax
      else (un e r.tail).andThen fun y r' =>
        arLoop c un (r'.length + 1) e ⟨(peek r).kind, x, y, (peek r).op⟩ r'
    else if (peek r).op &&& 0xF8 = 0x20 then bitLoop c un (peek r).op (r.length + 1) e x r
    else if (peek r).isOp .shl || (peek r).isOp .shr || (peek r).isOp .shru then
      (un e r.tail).andThen fun y r' => .ok (.oper (peek r).kind [x, y]) r'
    else .ok x r

/-- `comparison_expr`, 1308–1351 -/
def comparison (ar : P) : P := fun e ts =>
  (ar e ts).andThen fun x r =>
    if (peek r).isKw .in || (peek r).isKw .propertyof then
      (ar e r.tail).andThen fun y r' => .ok (.oper (peek r).kind [y, x]) r'
    else if (peek r).op &&& 0xF8 = 0x28 || (peek r).isKw .instanceof then
      (ar e r.tail).andThen fun y r' => .ok (.oper (peek r).kind [x, y]) r'
    else .ok x r

/-- The loop of `logical_expr`, 1372–1410: what is put into the innermost operator. -/
def logicLoop (c : Cfg) (co : P) (op : Op) : Nat → Env → Toks → Res Ast
  | 0, _, _ => .err .fuel
  | f + 1, e, ts =>
    deeper c e fun e' =>
      (co e' ts).andThen fun x r =>
        if (peek r).isOp op then
          (logicLoop c co op f e' r.tail).andThen fun y r' => .ok (.oper (.op op) [x, y]) r'
        else if (peek r).isOp .logand || (peek r).isOp .logor then .err .syntax
        else .ok x r

/-- `logical_expr`, 1353–1418 -/
def logical (c : Cfg) (co : P) : P := fun e ts =>
  (co e ts).andThen fun x r =>
    match (peek r).kind with
    | .op .logand =>
      (logicLoop c co .logand (r.length + 1) e r.tail).andThen fun y r' =>
        .ok (.oper (.op .logand) [x, y]) r'
    | .op .logor =>
      (logicLoop c co .logor (r.length + 1) e r.tail).andThen fun y r' =>
        .ok (.oper (.op .logor) [x, y]) r'
    | _ => .ok x r

/-- `conditional_expr`, 1420–1467 -/
def conditional (c : Cfg) (lo : P) : Nat → P
  | 0, _, _ => .err .fuel
  | f + 1, e, ts =>
    (lo e ts).andThen fun x r =>
      if (peek r).isOp .tri then
        deeper c e fun e' =>
          (conditional c lo f e'.inner r.tail).andThen fun y r1 =>
            assume .colon r1 fun r2 =>
              (conditional c lo f e' r2).andThen fun z r3 =>
                .ok (.oper (.op .tri) [x, y, z]) r3
      else .ok x r

/-- The loop of `stream_expr`, 1483–1508. -/
def streamLoop (c : Cfg) (cd : P) : Nat → Env → Ast → Toks → Res Ast
  | 0, _, _, _ => .err .fuel
  | f + 1, e, x, ts =>
    if (peek ts).isOp .arrow then
      deeper c e fun e' =>
        (cd e' ts.tail).andThen fun g r =>
          match callee e' g with
          | none => .err .syntax
          | some g' => streamLoop c cd f e' (.call g' [x]) r
    else .ok x ts

/-- `stream_expr`, 1469–1518 -/
def stream (c : Cfg) (cd : P) : P := fun e ts =>
  deeper c e fun e' =>
    (cd e' ts).andThen fun x r => streamLoop c cd (r.length + 1) e' x r

/-- `async_expr`, 1520–1602, without `do`; `ts` is behind the keyword. -/
def async (st : P) : P := fun e ts =>
  (st e ts).andThen fun x r =>
    if x.ty = .invocation then .ok (.mk .async none [x]) r else .err .syntax

/-- `right_hand_side_expr`, 1604–1647 -/
def rhsBody (st : P) : P := fun e ts =>
  if (peek ts).isKw .yield then
    if e.ctor then .err .syntax
    else if (peek ts.tail).isKw .async then
      (async st e ts.tail.tail).andThen fun x r => .ok (.mk .yield none [x]) r
    else (st e ts.tail).andThen fun x r => .ok (.mk .yield none [x]) r
  else if (peek ts).isKw .async then async st e ts.tail
  else st e ts

/-- The levels between an expression in brackets and the whole expression. -/
def unaryP (c : Cfg) (rhs : P) : P := fun e ts => unary c rhs (ts.length + 1) e ts
def logicalP (c : Cfg) (rhs : P) : P := logical c (comparison (arith c (unaryP c rhs)))
def condP (c : Cfg) (rhs : P) : P := fun e ts => conditional c (logicalP c rhs) (ts.length + 1) e ts
def streamP (c : Cfg) (rhs : P) : P := stream c (condP c rhs)

/-- `right_hand_side_expr`, with a bound on how deep the brackets are nested. -/
def rhsN (c : Cfg) : Nat → P
  | 0, _, _ => .err .fuel
  | n + 1, e, ts => rhsBody (streamP c (rhsN c n)) e ts

/-- `right_hand_side_expr` -/
def parseRhs (c : Cfg) : P := fun e ts => rhsN c (ts.length + 1) e ts

end Verif.Expr
