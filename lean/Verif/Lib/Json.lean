import Verif.Lexer.Token
import Verif.Utf8.Str
import Verif.Lib.Text
import Verif.Misc.ParseDouble
import Verif.Misc.PrintFloat
/-
Module json: modules/json.kos, with the lexer of module kos (modules/kos_mod_kos.c:106-358 `raw_lexer`).

Values are trees: arrays and objects which contain themselves, functions and buffers are left out.  An object is the list of its properties
in the order in which it is walked; property keys are strings.  Call depth is not limited here.
-/
namespace Verif.Json
open Verif.Misc (parseNumeric printFloat dec NumRes Numeric)
open Verif.Lexer (nextToken between TT prefetch collectEscape decimalScan)

inductive V
  | void
  | bool (b : Bool)
  | int (i : Int)
  | flt (bits : Nat)
  | str (s : List Nat)
  | arr (l : List V)
  | obj (l : List (List Nat × V))
  deriving Repr

def ascii (s : String) : List Nat := s.toList.map Char.toNat

/-- Conversion of an integer to a string: `int_to_str` in core/kos_utils.c, "%" PRId64. -/
def intText (i : Int) : List Nat := if i < 0 then 45 :: dec (i.natAbs + 1) i.natAbs else dec (i.natAbs + 1) i.natAbs

/-- modules/json.kos:370-371 -/
def dumpStr (s : List Nat) : Option (List Nat) := Text.concat [[34], s, [34]]

/-- `",".join(...)` between brackets -/
def brackets (b e : Nat) : Option (List (List Nat)) → Option (List Nat)
  | none => none
  | some ts =>
    match Text.join [44] ts with
    | none => none
    | some t => Text.concat [[b], t, [e]]

/-! modules/json.kos:358-395 `dump`; `none` is an exception. -/
mutual
def dump : V → Option (List Nat)
  | .void => some (ascii "null")
  | .bool b => some (ascii (if b then "true" else "false"))
  | .int i => some (intText i)
  | .flt b => some (printFloat 32 b)
  | .str s => dumpStr s
  | .arr l => brackets 91 93 (dumpAll l)
  | .obj l =>
    -- the property `map` of the object hides that of its prototype, and is not a function
    if l.any (fun kv => kv.1 == ascii "map") then none
    else brackets 123 125 (dumpProps l)
/-- `object.map(dump)` -/
def dumpAll : List V → Option (List (List Nat))
  | [] => some []
  | v :: l =>
    match dump v with
    | none => none
    | some t =>
      match dumpAll l with
      | none => none
      | some ts => some (t :: ts)
/-- `object.map(kv => ...)` -/
def dumpProps : List (List Nat × V) → Option (List (List Nat))
  | [] => some []
  | (k, v) :: l =>
    match dumpStr k with
    | none => none
    | some a =>
      match dump v with
      | none => none
      | some b =>
        match Text.concat [a, [58], b] with
        | none => none
        | some t =>
          match dumpProps l with
          | none => none
          | some ts => some (t :: ts)
end

/-- A token of JSON: it has the property `value` or it is a separator. -/
inductive Tok
  | val (v : V)
  | sep (c : Nat)
  deriving Repr

/-- How the generator of tokens ends; `unknown`: see `recover`. -/
inductive End | eof | throw | unknown
  deriving DecidableEq, Repr

abbrev Toks := List Tok × End
def put (t : Tok) (ts : Toks) : Toks := (t :: ts.1, ts.2)

/-- `-token.value` -/
def negate : Numeric → V
  | .int i => .int ((-i + 2 ^ 63) % 2 ^ 64 - 2 ^ 63)
  | .float b => .flt (if b / 2 ^ 63 % 2 = 1 then b - 2 ^ 63 else b + 2 ^ 63)
def same : Numeric → V
  | .int i => .int i
  | .float b => .flt b

/-- modules/json.kos:82-89 -/
def numberTok (text : List Nat) (minus : Bool) (rest : Toks) : Toks :=
  match parseNumeric text with
  | .ok n => put (.val (if minus then negate n else same n)) rest
  | .err => ([], .throw)
  | .ub => ([], .unknown)

/-- modules/json.kos:91-94: the text without the first and the last character; escapes are not replaced. -/
def stringTok (text : List Nat) (rest : Toks) : Toks :=
  match Utf8.newString false 8 (fun _ => true) text with
  | .ok (_, s) => put (.val (.str (s.drop 1).dropLast)) rest
  | .err => ([], .throw)
  | .ub => ([], .unknown)

/-- modules/json.kos:72-80 -/
def wordTok (text : List Nat) (rest : Toks) : Toks :=
  if text = ascii "true" then put (.val (.bool true)) rest
  else if text = ascii "false" then put (.val (.bool false)) rest
  else if text = ascii "null" then put (.val .void) rest
  else ([], .throw)

def isSep (c : Nat) : Bool := [123, 125, 91, 93, 44, 58].contains c

/-- One token of the lexer: what `tokenize` yields, given what it yields afterwards (with `had_minus`). -/
def step (t : TT) (text : List Nat) (minus : Bool) (rest : Bool → Toks) : Toks :=
  if t = .eof then ([], if minus then .throw else .eof)
  else if minus ∧ t ≠ .numeric then ([], .throw)
  else
    match t with
    | .comment => rest minus
    | .whitespace => rest minus
    | .eol => rest minus
    | .separator c => if isSep c then put (.sep c) (rest minus) else ([], .throw)
    | .operator op => if op = .sub then rest true else ([], .throw)
    | .keyword _ => wordTok text (rest minus)
    | .identifier => wordTok text (rest minus)
    | .numeric => numberTok text minus (rest false)
    | .string => stringTok text (rest minus)
    | _ => ([], .throw)

/-- core/kos_lexer.c:507-546 `collect_string`, after the opening quote: where it stops if the string has no end.  Errors in escapes are not
modelled. -/
def stringErr : Nat → List Nat → Option (List Nat)
  | 0, _ => none
  | fuel + 1, b =>
    let (c, e) := prefetch b
    if c = .eof then some e
    else if c = .invalidUtf8 then some e
    else if c = .string then none
    else if c = .backslash then
      match collectEscape e with
      | .ok (e, format) => if format then none else stringErr fuel e
      | _ => none
    else if c = .eol then some e
    else stringErr fuel e

/-- core/kos_lexer.c:659: `retract`. -/
def decimalErr (first : Nat) (b : List Nat) : Option (List Nat) :=
  match decimalScan first b with
  | .ok (_, b) => some b
  | _ => none

/-- Where the lexer stops when it finds an error: behind the character which is not allowed, where the string was found not to end, or at the
character because of which the number is wrong.  Errors in hexadecimal and binary numbers, raw strings and escapes, and tokens which are too long,
are not modelled. -/
def recover (b : List Nat) : Option (List Nat) :=
  let (c, e) := prefetch b
  match c with
  | .string => stringErr (e.length + 1) e
  | .digit =>
    match b with
    | [] => none
    | x :: _ => if x = 48 ∧ (e.head? = some 120 ∨ e.head? = some 88 ∨ e.head? = some 98 ∨ e.head? = some 66) then none else decimalErr x e
  | .tab => some e
  | .invalid => some e
  | .backslash => some e
  | .utf8Two => some e
  | .utf8Three => some e
  | .utf8Four => some e
  | _ => none

/-- modules/kos_mod_kos.c:290-303: with `ignore_errors`, what the lexer could not read becomes whitespace. -/
def skipErr (b : List Nat) (minus : Bool) (rest : List Nat → Toks) : Toks :=
  match recover b with
  | none => ([], .unknown)
  | some e =>
    match Utf8.newString false 8 (fun _ => true) (between b e) with
    | .ok _ => if minus then ([], .throw) else rest e
    | .err => ([], .throw)
    | .ub => ([], .unknown)

/-- modules/json.kos:36-105 `tokenize`; each token has at least one byte. -/
def tokenize : Nat → List Nat → Bool → Toks
  | 0, _, _ => ([], .unknown)
  | n + 1, b, minus =>
    match nextToken b with
    | .err => skipErr b minus (fun e => tokenize n e false)
    | .ub => ([], .unknown)
    | .ok (t, e) => step t (between b e) minus (tokenize n e)

inductive Res (α : Type)
  | ok (a : α)
  | throw
  | unknown
  deriving Repr

/-- `lexer.next()` and `lexer.peek()` when there are no more tokens. -/
def atEnd {α : Type} : End → Res α
  | .unknown => .unknown
  | _ => .throw

/-- `obj[key] = value` -/
def setProp (o : List (List Nat × V)) (k : List Nat) (v : V) : List (List Nat × V) :=
  match o with
  | [] => [(k, v)]
  | (k', v') :: o => if k' = k then (k, v) :: o else (k', v') :: setProp o k v

/-! modules/json.kos:145-246; `z` is how the tokens end.  The results are the value and the tokens which are left. -/
mutual
def parseValue (z : End) : Nat → List Tok → Res (V × List Tok)
  | 0, _ => .unknown
  | n + 1, ts =>
    match ts with
    | [] => atEnd z
    | .val v :: ts => .ok (v, ts)
    | .sep c :: ts =>
      if c = 91 then
        match parseArray z n [] ts with
        | .ok (l, ts) => .ok (.arr l, ts)
        | .throw => .throw
        | .unknown => .unknown
      else if c = 123 then
        match parseObject z n [] ts with
        | .ok (l, ts) => .ok (.obj l, ts)
        | .throw => .throw
        | .unknown => .unknown
      else .throw
/-- modules/json.kos:145-177 `parse_array_value`; `acc` are the elements so far. -/
def parseArray (z : End) : Nat → List V → List Tok → Res (List V × List Tok)
  | 0, _, _ => .unknown
  | n + 1, acc, ts =>
    match ts with
    | [] => atEnd z
    | .sep 93 :: ts => .ok (acc, ts)
    | .sep 44 :: ts => parseArray z n acc ts
    | t :: ts =>
      match parseValue z n (t :: ts) with
      | .throw => .throw
      | .unknown => .unknown
      | .ok (v, ts) =>
        match ts with
        | [] => atEnd z
        | .sep 93 :: ts => .ok (acc ++ [v], ts)
        | .sep 44 :: ts => parseArray z n (acc ++ [v]) ts
        | _ => .throw
/-- modules/json.kos:179-227 `parse_object`; `acc` is the object so far. -/
def parseObject (z : End) : Nat → List (List Nat × V) → List Tok → Res (List (List Nat × V) × List Tok)
  | 0, _, _ => .unknown
  | n + 1, acc, ts =>
    match ts with
    | [] => atEnd z
    | .sep 125 :: ts => .ok (acc, ts)
    | .sep 44 :: ts => parseObject z n acc ts
    | .val (.str k) :: ts =>
      match ts with
      | [] => atEnd z
      | .sep 58 :: ts =>
        match parseValue z n ts with
        | .throw => .throw
        | .unknown => .unknown
        | .ok (v, ts) =>
          match ts with
          | [] => atEnd z
          | .sep 125 :: ts => .ok (setProp acc k v, ts)
          | .sep 44 :: ts => parseObject z n (setProp acc k v) ts
          | _ => .throw
      | _ => .throw
    | _ => .throw
end

/-- modules/json.kos:275-285 `parse`, of a string; the number of bytes per character makes no difference (`C05_encode`). -/
def parse (text : List Nat) : Res V :=
  match Utf8.stringToUtf8 .e32 text with
  | none => .throw
  | some (bytes, _) =>
    let (ts, z) := tokenize (bytes.length + 1) bytes false
    match parseValue z (2 * ts.length + 2) ts with
    | .throw => .throw
    | .unknown => .unknown
    | .ok (v, rest) =>
      match rest, z with
      | [], .eof => .ok v
      | [], .unknown => .unknown
      | _, _ => .throw

end Verif.Json
