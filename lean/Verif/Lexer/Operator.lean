import Verif.Lexer.Keyword
/-
Operator tokens: core/kos_lexer.c:256-273 `operator_map`, 719-765 `collect_operator`.

Simplified: of `prefetch_next` only what matters here is kept: whether the next byte is of class
`LT_OPERATOR` (all such bytes are single-byte characters), and the byte itself.
-/
namespace Verif.Lexer

/-- Operator token codes (core/kos_lexer.h:92-150 `KOS_OPERATOR_TYPE`). -/
inductive Op
  | none | lognot | ne | mod | setmod | and | logand | setand | mul | setmul | add | setadd
  | sub | setsub | arrow | dot | more | div | setdiv | lt | shl | setshl | le | set | eq | lambda
  | gt | ge | shr | setshr | shru | setshru | logtri | xor | setxor | or | setor | logor | not
  deriving DecidableEq, Repr

/-- core/kos_lexer.c:61-193 `lexem_types`: bytes of class `LT_OPERATOR`
(`!`, `%`, `&`, `*`, `+`, `-`, `.`, `<`, `=`, `>`, `?`, `^`, `|`, `~`; not `/`, which is `LT_SLASH`). -/
def opBytes : List Nat := [33, 37, 38, 42, 43, 45, 46, 60, 61, 62, 63, 94, 124, 126]
def isOpByte (c : Nat) : Bool := opBytes.contains c

/-- Row of `operator_map` selected by the first byte through `hex_and_operator_map`
(core/kos_lexer.c:199-273).  Strings as stored, without the final NUL that C adds; note that
the entry for `<=` carries an additional explicit NUL. -/
def opGroup (first : Nat) : List (List Nat × Op) :=
  if first = 33 then [(bytes "!", .lognot), (bytes "!=", .ne)]
  else if first = 37 then [(bytes "%", .mod), (bytes "%=", .setmod)]
  else if first = 38 then [(bytes "&", .and), (bytes "&&", .logand), (bytes "&=", .setand)]
  else if first = 42 then [(bytes "*", .mul), (bytes "*=", .setmul)]
  else if first = 43 then [(bytes "+", .add), (bytes "+=", .setadd)]
  else if first = 45 then [(bytes "-", .sub), (bytes "-=", .setsub), (bytes "->", .arrow)]
  else if first = 46 then [(bytes ".", .dot), (bytes "...", .more)]
  else if first = 47 then [(bytes "/", .div), (bytes "/=", .setdiv)]
  else if first = 60 then [(bytes "<", .lt), (bytes "<<", .shl), (bytes "<<=", .setshl), (bytes "<=" ++ [0], .le)]
  else if first = 61 then [(bytes "=", .set), (bytes "==", .eq), (bytes "=>", .lambda)]
  else if first = 62 then [(bytes ">", .gt), (bytes ">=", .ge), (bytes ">>", .shr), (bytes ">>=", .setshr),
    (bytes ">>>", .shru), (bytes ">>>=", .setshru)]
  else if first = 63 then [(bytes "?", .logtri)]
  else if first = 94 then [(bytes "^", .xor), (bytes "^=", .setxor)]
  else if first = 124 then [(bytes "|", .or), (bytes "|=", .setor), (bytes "||", .logor)]
  else if first = 126 then [(bytes "~", .not)]
  else []

/-- `op_group->str[idx]`: `none` when the read is past the terminating NUL. -/
def strAt (s : List Nat) (idx : Nat) : Option Nat :=
  if idx < s.length then s[idx]? else if idx = s.length then some 0 else none

/-- Outcome of a scan: operator, number of bytes consumed; or an out-of-bounds table read. -/
inductive OpRes
  | tok (op : Op) (len : Nat)
  | oob
  deriving DecidableEq, Repr

/-- core/kos_lexer.c:739-747: `while (*begin > cur) { ++op_group; ... }`. Returns the remaining group and `cur`. -/
def advance (b idx : Nat) : List (List Nat × Op) → Nat → Option (List (List Nat × Op) × Nat)
  | [], cur => some ([], cur)
  | e :: g', cur =>
    if b > cur then
      match g'.head? with
      | none => some ([], 0)          -- the sentinel: type OT_NONE, cur = 0
      | some (s, _) =>
        match strAt s idx with
        | none => none
        | some cur' => advance b idx g' cur'
    else some (e :: g', cur)

/-- core/kos_lexer.c:729-753: the scanning loop. `n` bytes are consumed when the loop is left
(`retract` puts the last one back). -/
def opLoop : List Nat → List (List Nat × Op) → Nat → OpRes
  | input, g, idx =>
    match g.head? with
    | none => .oob                                  -- would read the sentinel's null string
    | some (s, op) =>
      match strAt s idx with
      | none => .oob
      | some cur =>
        match input with
        | [] => .tok op idx                         -- LT_EOF: break
        | b :: rest =>
          if isOpByte b then
            match advance b idx g cur with
            | none => .oob
            | some (g', cur') =>
              if cur' ≠ 0 ∧ b = cur' then opLoop rest g' (idx + 1) else .tok op idx
          else .tok op idx                          -- c != LT_OPERATOR: break
termination_by structural input => input

/-- core/kos_lexer.c:719-765 `collect_operator`, on the first byte and the bytes after it. -/
def collectOperator (first : Nat) (rest : List Nat) : OpRes :=
  match opLoop rest (opGroup first) 1 with
  | .tok op len => if op = .more ∧ len = 2 then .tok .dot 1 else .tok op len
  | .oob => .oob

/-- Operator tokens of `kos_lexer_next_token` (core/kos_lexer.c:975-1015): `LT_OPERATOR` bytes go to
`collect_operator`; `/` does so unless it starts a comment; a `/` at the very end keeps `OT_NONE`.
`none`: not an operator token. -/
def operatorToken : List Nat → Option OpRes
  | [] => none
  | c :: rest =>
    if isOpByte c then some (collectOperator c rest)
    else if c = 47 then
      match rest with
      | [] => some (.tok .none 1)
      | d :: _ => if d = 47 ∨ d = 42 then none else some (collectOperator c rest)
    else none

end Verif.Lexer
