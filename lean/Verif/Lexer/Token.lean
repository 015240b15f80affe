import Verif.Lexer.Operator
import Verif.Utf8.Model
/-
The tokenizer: core/kos_lexer.c.  Source text is a list of bytes; a pointer into it is the list of bytes from
there to the end.  Lines and columns are not modelled.
-/
namespace Verif.Lexer
open Verif.Utf8 (Esc escMap)

/-- core/kos_lexer.c:33-59 `KOS_LEXEM_TYPE_E`. -/
inductive LT
  | invalid | whitespace | comment | backslash | separator | operator | slash | string | tab
  | digit | letter | underscore | eol | eof | utf8Tail | utf8Two | utf8Three | utf8Four | invalidUtf8
  deriving DecidableEq, Repr

/-- `(c & LT_ALPHANUMERIC) != 0`. -/
def LT.alnum : LT → Bool | .digit => true | .letter => true | .underscore => true | _ => false
/-- `(c & LT_EOL) != 0`: end of line or of file. -/
def LT.eolBit : LT → Bool | .eol => true | .eof => true | _ => false

/-- core/kos_lexer.c:61-177 `lexem_types`. -/
def lexemType (c : Nat) : LT :=
  if c = 9 then .tab
  else if c = 10 ∨ c = 13 then .eol
  else if c = 11 ∨ c = 12 ∨ c = 32 then .whitespace
  else if isOpByte c then .operator
  else if c = 34 then .string
  else if c = 35 then .comment
  else if c = 47 then .slash
  else if c = 40 ∨ c = 41 ∨ c = 44 ∨ c = 58 ∨ c = 59 ∨ c = 91 ∨ c = 93 ∨ c = 123 ∨ c = 125 then .separator
  else if 48 ≤ c ∧ c ≤ 57 then .digit
  else if (65 ≤ c ∧ c ≤ 90) ∨ (97 ≤ c ∧ c ≤ 122) then .letter
  else if c = 92 then .backslash
  else if c = 95 then .underscore
  else if 128 ≤ c ∧ c ≤ 191 then .utf8Tail
  else if 194 ≤ c ∧ c ≤ 223 then .utf8Two
  else if 224 ≤ c ∧ c ≤ 239 then .utf8Three
  else if 240 ≤ c ∧ c ≤ 247 then .utf8Four
  else .invalid

/-- `lt & LT_UTF8_MASK` for the multi-byte types, 0 for the others. -/
def LT.multi : LT → Nat | .utf8Two => 2 | .utf8Three => 3 | .utf8Four => 4 | _ => 0

/-- core/kos_lexer.c:343-350: continuation bytes: whether all are tails, the code so far, and `b + i`. -/
def tails : Nat → Nat → List Nat → Bool × Nat × List Nat
  | 0, code, s => (true, code, s)
  | _ + 1, code, [] => (true, code, [])           -- not reached: the length was checked
  | n + 1, code, c :: s =>
    if lexemType c ≠ .utf8Tail then (false, code, c :: s)
    else tails n ((code <<< 6) ||| (c &&& 0x3F)) s

/-- core/kos_lexer.c:354-357. -/
def spaceCode (code : Nat) : Bool := code == 0x00A0 || code == 0x2028 || code == 0x2029 || code == 0xFEFF

/-- core/kos_lexer.c:324-389 `prefetch_next`: the type of the next character, and where it ends. -/
def prefetch (b : List Nat) : LT × List Nat :=
  match b with
  | [] => (.eof, [])
  | c :: s =>
    let lt := lexemType c
    if lt = .utf8Tail then (.invalidUtf8, c :: s)
    else if lt.multi ≠ 0 then
      if lt.multi > (c :: s).length then (.invalidUtf8, [])
      else
        let (good, code, e) := tails (lt.multi - 1) (((c <<< lt.multi) &&& 0xFF) >>> lt.multi) s
        let lt := if good then lt else .invalidUtf8
        (if spaceCode code then .whitespace else lt, e)
    else if lt = .eol ∧ c = 13 ∧ s.head? = some 10 then (.eol, s.tail)
    else (lt, s)

/-- `hex_and_operator_map[c] == OMI_HEX` (core/kos_lexer.c:199-246). -/
def charIsHex (c : Nat) : Bool := (48 ≤ c && c ≤ 57) || (65 ≤ c && c ≤ 70) || (97 ≤ c && c ≤ 102)
def hexOrUnderscore (c : Nat) : Bool := charIsHex c || c == 95
def binOrUnderscore (c : Nat) : Bool := c == 48 || c == 49 || c == 95

/-- Byte at a pointer; `none` is a read at the end of the source (callers check for `LT_EOF` first). -/
def at? (b : List Nat) : Option Nat := b.head?

/-- Outcome of a collector: the position after the token, an error, or something undefined. -/
inductive Res (α : Type)
  | ok (a : α)
  | err
  | ub
  deriving DecidableEq, Repr

/-- `do c = prefetch_next(); while (p(c))`: the type at which the loop stopped and `begin` of that character. -/
def skipWhile (p : LT → Nat → Bool) : Nat → List Nat → Res (LT × List Nat)
  | 0, _ => .ub
  | fuel + 1, b =>
    let (c, e) := prefetch b
    match b with
    | [] => .ok (c, b)
    | x :: _ => if p c x then skipWhile p fuel e else .ok (c, b)

/-- core/kos_lexer.c:397-407 `collect_whitespace`: position after the token. -/
def collectWhitespace (b : List Nat) : Res (List Nat) :=
  match skipWhile (fun c _ => c == .whitespace) (b.length + 1) b with
  | .ok (_, b) => .ok b
  | .err => .err
  | .ub => .ub

/-- core/kos_lexer.c:409-419 `collect_all_until_eol`. -/
def collectUntilEol (b : List Nat) : Res (List Nat) :=
  match skipWhile (fun c _ => !c.eolBit && c != .invalidUtf8) (b.length + 1) b with
  | .ok (_, b) => .ok b
  | .err => .err
  | .ub => .ub

/-- core/kos_lexer.c:576-586 `collect_identifier`. -/
def collectIdentifier (b : List Nat) : Res (List Nat) :=
  match skipWhile (fun c _ => c.alnum) (b.length + 1) b with
  | .ok (_, b) => .ok b
  | .err => .err
  | .ub => .ub

/-- core/kos_lexer.c:588-608 `collect_block_comment`: the loop, `c` and `begin` are the last prefetched character, `e` its end. -/
def blockLoop : Nat → LT → List Nat → List Nat → Res (List Nat)
  | 0, _, _, _ => .ub
  | fuel + 1, c, begin, e =>
    if c = .eof then .ok e
    else
      let prev := at? begin
      let begin := e
      let (c, e) := prefetch begin
      if c = .invalidUtf8 then .ok begin
      else if prev = some 42 ∧ c ≠ .eof ∧ at? begin = some 47 then .ok e
      else blockLoop fuel c begin e
def collectBlockComment (b : List Nat) : Res (List Nat) :=
  let (c, e) := prefetch b
  blockLoop (b.length + 2) c b e

/-- core/kos_lexer.c:462-478: digits inside `\x{`...`}`; returns the number of digits and the position. -/
def hexBraces : Nat → Nat → List Nat → Res (Nat × List Nat)
  | 0, _, _ => .ub
  | fuel + 1, count, b =>
    let (_, e) := prefetch b
    match b with
    | [] => .err
    | x :: _ =>
      if x = 125 then .ok (count, e)
      else if !charIsHex x then .err
      else hexBraces fuel (count + 1) e

/-- core/kos_lexer.c:437-505 `collect_escape`: position after the escape, and the `format` flag. -/
def collectEscape (b : List Nat) : Res (List Nat × Bool) :=
  let (_, e) := prefetch b
  match b with
  | [] => .err
  | x :: _ =>
    match escMap x with
    | .hex =>
      let b := e
      let (_, e) := prefetch b
      match b with
      | [] => .err
      | y :: _ =>
        if y = 123 then
          match hexBraces (e.length + 1) 0 e with
          | .ok (count, e) => if count = 0 then .err else if count > 6 then .err else .ok (e, false)
          | .err => .err
          | .ub => .ub
        else if charIsHex y then
          let b := e
          let (_, e) := prefetch b
          match b with
          | [] => .err
          | z :: _ => if !charIsHex z then .err else .ok (e, false)
        else .err
    | .interpolate => .ok (e, true)
    | _ => .ok (e, false)

/-- core/kos_lexer.c:507-546 `collect_string`, after the opening quote; position after the token. -/
def collectString : Nat → List Nat → Res (List Nat)
  | 0, _ => .ub
  | fuel + 1, b =>
    let (c, e) := prefetch b
    if c = .eof then .err
    else if c = .invalidUtf8 then .err
    else if c = .string then .ok e
    else if c = .backslash then
      match collectEscape e with
      | .ok (e, format) => if format then .ok e else collectString fuel e
      | .err => .err
      | .ub => .ub
    else if c = .eol then .err
    else collectString fuel e

/-- core/kos_lexer.c:548-574 `collect_raw_string`. -/
def collectRaw : Nat → List Nat → Res (List Nat)
  | 0, _ => .ub
  | fuel + 1, b =>
    let (c, e) := prefetch b
    if c = .eof then .err
    else if c = .invalidUtf8 then .err
    else if c = .string then .ok e
    else if c = .backslash then
      let (c, e) := prefetch e
      if c = .eof ∨ c = .invalidUtf8 then .err
      else collectRaw fuel e
    else collectRaw fuel e

def digitOrUnderscore (c : LT) : Bool := c == .digit || c == .underscore

/-- core/kos_lexer.c:627-657: the loops of `collect_decimal`; `first` is the first byte of the token, `b` is after it.
Each `skip` returns the type of the character at which it stopped and its position. -/
def decimalScan (first : Nat) (b : List Nat) : Res (LT × List Nat) :=
  let one (b : List Nat) : Res (LT × List Nat) := .ok ((prefetch b).1, b)
  let digits (b : List Nat) := skipWhile (fun c _ => digitOrUnderscore c) (b.length + 1) b
  match (if first ≠ 48 then digits b else one b) with
  | .err => .err
  | .ub => .ub
  | .ok (c, b) =>
    match (if c = .operator ∧ at? b = some 46 then digits (prefetch b).2 else .ok (c, b)) with
    | .err => .err
    | .ub => .ub
    | .ok (c, b) =>
      if c = .letter ∧ (at? b = some 101 ∨ at? b = some 69 ∨ at? b = some 112 ∨ at? b = some 80) then
        let b := (prefetch b).2
        let c := (prefetch b).1
        let b := if c = .operator ∧ (at? b = some 43 ∨ at? b = some 45) then (prefetch b).2 else b
        let c := (prefetch b).1
        if digitOrUnderscore c then
          if at? b ≠ some 48 then digits (prefetch b).2
          else one (prefetch b).2
        else .ok (.digit, b)
      else .ok (c, b)

/-- core/kos_lexer.c:621-667 `collect_decimal` -/
def collectDecimal (first : Nat) (b : List Nat) : Res (List Nat) :=
  match decimalScan first b with
  | .err => .err
  | .ub => .ub
  | .ok (c, b) => if c.alnum then .err else .ok b

/-- core/kos_lexer.c:669-692 `collect_hex` and 694-717 `collect_bin`, after the `x` or `b`. -/
def collectDigits (p : Nat → Bool) (b : List Nat) : Res (List Nat) :=
  match b with
  | [] => .err
  | x :: _ =>
    if !p x then .err
    else
      let e := (prefetch b).2
      match skipWhile (fun _ x => p x) (e.length + 1) e with
      | .ok (_, b) => .ok b
      | .err => .err
      | .ub => .ub

/-- Token types (core/kos_lexer.h), with the payload the parser uses. -/
inductive TT
  | whitespace | eol | comment | identifier | keyword (k : Nat) | numeric | string | stringOpen
  | operator (op : Op) | separator (c : Nat) | eof
  deriving DecidableEq, Repr

/-- The bytes from pointer `b` up to pointer `e`. -/
def between (b e : List Nat) : List Nat := b.take (b.length - e.length)

/-- `*(end-1) == '('`. -/
def stringType (b e : List Nat) : TT := if (between b e).getLast? = some 40 then .stringOpen else .string

def mapRes (r : Res (List Nat)) (f : List Nat → TT) : Res (TT × List Nat) :=
  match r with
  | .ok e => .ok (f e, e)
  | .err => .err
  | .ub => .ub

/-- Identifier or keyword starting at `b`; `e` is after its first character (core/kos_lexer.c:935-940). -/
def identToken (b e : List Nat) : Res (TT × List Nat) :=
  mapRes (collectIdentifier e) (fun e =>
    if findKeyword (between b e) = 0 then .identifier else .keyword (findKeyword (between b e)))

def opToken (first : Nat) (rest : List Nat) : Res (TT × List Nat) :=
  match collectOperator first rest with
  | .tok op len => .ok (.operator op, rest.drop (len - 1))
  | .oob => .ub

/-- core/kos_lexer.c:875-1071 `kos_lexer_next_token` in mode `NT_ANY`, without the length check. -/
def tokenAny (b : List Nat) : Res (TT × List Nat) :=
  let (c, e) := prefetch b
  match b with
  | [] => .ok (.eof, [])
  | x :: s =>
    match c with
    | .whitespace => mapRes (collectWhitespace e) (fun _ => .whitespace)
    | .eol => .ok (.eol, e)
    | .letter =>
      if x = 114 ∨ x = 82 then
        let (c2, e2) := prefetch e
        if c2 = .string then mapRes (collectRaw (e2.length + 1) e2) (fun _ => .string)
        else identToken b e
      else identToken b e
    | .underscore => identToken b e
    | .string => mapRes (collectString (e.length + 1) e) (stringType b)
    | .digit =>
      if x = 48 then
        let (c2, e2) := prefetch e
        if c2 ≠ .eof ∧ (at? e = some 120 ∨ at? e = some 88) then mapRes (collectDigits hexOrUnderscore e2) (fun _ => .numeric)
        else if c2 ≠ .eof ∧ (at? e = some 98 ∨ at? e = some 66) then mapRes (collectDigits binOrUnderscore e2) (fun _ => .numeric)
        else mapRes (collectDecimal x e) (fun _ => .numeric)
      else mapRes (collectDecimal x e) (fun _ => .numeric)
    | .operator => opToken x s
    | .separator => .ok (.separator x, e)
    | .slash =>
      let (c2, e2) := prefetch e
      if c2 ≠ .eof then
        if c2 = .slash then mapRes (collectUntilEol e2) (fun _ => .comment)
        else if at? e = some 42 then mapRes (collectBlockComment e2) (fun _ => .comment)
        else opToken x s
      else .ok (.operator .none, e2)
    | .comment => mapRes (collectUntilEol e) (fun _ => .comment)
    | _ => .err

/-- core/kos_lexer.c:892-912: modes which continue an interpolated string at its `)`. -/
def tokenCont (b : List Nat) : Res (TT × List Nat) :=
  match b with
  | [] => .err
  | x :: s => if x ≠ 41 then .err else mapRes (collectString (s.length + 1) s) (stringType b)

/-- The length check of `kos_lexer_next_token` (core/kos_lexer.c:1048-1056). -/
def checkLen (b : List Nat) (r : Res (TT × List Nat)) : Res (TT × List Nat) :=
  match r with
  | .ok (t, e) => if b.length - e.length > 0xFFFF then .err else .ok (t, e)
  | .err => .err
  | .ub => .ub

def nextToken (b : List Nat) : Res (TT × List Nat) := checkLen b (tokenAny b)
def nextCont (b : List Nat) : Res (TT × List Nat) := checkLen b (tokenCont b)

end Verif.Lexer
