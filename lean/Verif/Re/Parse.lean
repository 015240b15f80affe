import Verif.Re.Class

/-!
# The compiler of regular expressions: `parse_re` and the functions below it

Regular expressions are compiled in one pass to an array of 16-bit words
(`RE_INSTR`, `modules/kos_mod_re.c:141-158`).  All targets of jumps are relative
to the jumping instruction.

Simplifications.  The expression is the list of the codes of its characters; the
end of the list is `END_OF_STR`.  Positions in the buffer are counted in words;
the code counts bytes and halves the difference.  Messages of exceptions are not
modelled: every exception is `none`.  `begin_idx` and `num_ranges` of a class are
natural numbers instead of 16-bit ones: an expression has at most 65535
characters and there is no way to make more ranges than that.  Running out of
memory is not modelled.
-/

namespace Verif.Re

/-- `RE_PARSE_CTX`, `modules/kos_mod_re.c:194-209`.  `input` is what `iter` has
not consumed yet. -/
structure Ctx where
  input : List Nat
  canMult : Bool := false
  groups : Nat := 0
  depth : Nat := 0
  counts : Nat := 0
  buf : List Nat := []
  descs : List (Nat × Nat) := []
  data : List Range := []
  digit : Option Nat := none
  word : Option Nat := none

/-- `peek_next_char`, `modules/kos_mod_re.c:241-247`. -/
def Ctx.peek (c : Ctx) : Option Nat := c.input.head?

/-- `consume_next_char`, `modules/kos_mod_re.c:258-263`. -/
def Ctx.consume (c : Ctx) : Ctx := { c with input := c.input.tail }

/-- `emit_instr`, `modules/kos_mod_re.c:265-302`; `emit_instr0` to `emit_instr4`
(lines 304-329) call it. -/
def Ctx.emit (c : Ctx) (code : Nat) (args : List Nat) : Option Ctx :=
  let buf := c.buf ++ code :: args.map (· % 65536)
  if 0xFFFF < 2 * buf.length then none
  else some { c with buf := buf, canMult := true }

/-- `expect_char`, `modules/kos_mod_re.c:346-370`. -/
def Ctx.expect (c : Ctx) (x : Nat) : Option Ctx :=
  if c.peek = some x then some c.consume else none

/-- `rotate_instr`, `modules/kos_mod_re.c:372-386`. -/
def Ctx.rotate (c : Ctx) (begin mid : Nat) : Ctx :=
  { c with buf := c.buf.take begin ++ c.buf.drop mid ++ (c.buf.take mid).drop begin }

/-- The cast `(uint16_t)(int16_t)`. -/
def word16 (d : Int) : Nat := (d % 65536).toNat

/-- `patch_jump_offs`, `modules/kos_mod_re.c:388-397`. -/
def Ctx.patch (c : Ctx) (instr target : Nat) : Ctx :=
  { c with buf := c.buf.set (instr + 1) (word16 ((target : Int) - instr)) }

/-- Is a code a decimal digit? -/
def isDigit (c : Nat) : Bool := decide (48 ≤ c) && decide (c ≤ 57)

/-- The loop of `parse_number`, `modules/kos_mod_re.c:424-440`. -/
def moreDigits : List Nat → Nat → Option (Nat × List Nat)
  | [], v => some (v, [])
  | d :: r, v =>
    if isDigit d then
      let v' := v * 10 + (d - 48)
      if 0xFFFF < v' then none else moreDigits r v'
    else some (v, d :: r)

/-- `parse_number`, `modules/kos_mod_re.c:401-445`. -/
def number : List Nat → Option (Nat × List Nat)
  | [] => none
  | d :: r => if isDigit d then moreDigits r (d - 48) else none

/-- `strchr(esc_whitespace, (char)code)` and what is made of it,
`modules/kos_mod_re.c:447-454`, `493-498`, `874-880`.  `strchr` also finds the
zero which terminates the string. -/
def spaceEscape (c : Nat) : Option Nat :=
  if c = 116 then some 9
  else if c = 110 then some 10
  else if c = 118 then some 11
  else if c = 102 then some 12
  else if c = 114 then some 13
  else if c = 0 then some 14
  else none

/-- The characters which `parse_class_char_escape_seq` takes literally,
`modules/kos_mod_re.c:472-490`. -/
def classEscapes : List Nat := [91, 93, 40, 41, 94, 34, 92, 45]

/-- `parse_class_char` with `parse_class_char_escape_seq`,
`modules/kos_mod_re.c:456-531`. -/
def classChar (c : Ctx) : Option (Nat × Ctx) :=
  match c.input with
  | [] => none
  | x :: r =>
    if x = 92 then
      match r with
      | [] => none
      | y :: r' =>
        if y ∈ classEscapes then some (y, { c with input := r' })
        else match spaceEscape y with
          | some z => some (z, { c with input := r' })
          | none => none
    else some (x, { c with input := r })

/-- `generate_class`, `modules/kos_mod_re.c:533-555`.  The new class has the last
number. -/
def Ctx.generateClass (c : Ctx) : Ctx := { c with descs := c.descs ++ [(c.data.length, 0)] }

/-- `add_class_range`, `modules/kos_mod_re.c:557-680`, for the class `id`, which is
the last one (assertion of line 571): its ranges are at the end of `class_data`. -/
def Ctx.addRange (c : Ctx) (id b e : Nat) : Ctx :=
  let desc := c.descs.getD id (0, 0)
  let rs := Re.addRange ((c.data.drop desc.1).take desc.2) b e
  { c with descs := c.descs.set id (desc.1, rs.length), data := c.data.take desc.1 ++ rs }

/-- One turn of the loop of `parse_class`, `modules/kos_mod_re.c:699-737`. -/
def classItem (c : Ctx) (id : Nat) : Option Ctx :=
  match classChar c with
  | none => none
  | some (code, c1) =>
    match (if c1.peek = some 45 then classChar c1.consume else some (code, c1)) with
    | none => none
    | some (endCode, c2) => if endCode < code then none else some (c2.addRange id code endCode)

/-- The loop of `parse_class`, `modules/kos_mod_re.c:699-739`. -/
def classLoop (id : Nat) : Nat → Ctx → Option Ctx
  | 0, _ => none
  | n + 1, c =>
    match classItem c id with
    | none => none
    | some c1 => if c1.peek = some 93 then some c1.consume else classLoop id n c1

/-- `parse_class`, `modules/kos_mod_re.c:682-744`. -/
def parseClass (c : Ctx) : Option Ctx :=
  let id := c.descs.length
  let c1 := c.generateClass
  let neg := decide (c1.peek = some 94)
  let c2 := if neg then c1.consume else c1
  match classLoop id (c2.input.length + 1) c2 with
  | none => none
  | some c3 => c3.emit (if neg then 4 else 3) [id]

/-- `get_digit_class_id`, `modules/kos_mod_re.c:746-756`. -/
def Ctx.digitClass (c : Ctx) : Nat × Ctx :=
  match c.digit with
  | some id => (id, c)
  | none =>
    let id := c.descs.length
    (id, { c.generateClass.addRange id 48 57 with digit := some id })

/-- `get_word_class_id`, `modules/kos_mod_re.c:758-772`. -/
def Ctx.wordClass (c : Ctx) : Nat × Ctx :=
  match c.word with
  | some id => (id, c)
  | none =>
    let id := c.descs.length
    (id, { (((c.generateClass.addRange id 97 122).addRange id 95 95).addRange id 65 90).addRange id 48 57
      with word := some id })

/-- The characters which `parse_escape_seq` takes literally,
`modules/kos_mod_re.c:790-818`. -/
def escapes : List Nat := [46, 42, 43, 63, 123, 94, 36, 92, 91, 93, 124, 40, 41, 34]

/-- `parse_escape_seq`, `modules/kos_mod_re.c:774-892`, after the backslash. -/
def parseEscape (c : Ctx) : Option Ctx :=
  match c.input with
  | [] => none
  | x :: r =>
    let c := { c with input := r }
    if x ∈ escapes then c.emit 0 [x]
    else if x = 60 then c.emit 7 [2]
    else if x = 62 then c.emit 7 [4]
    else if x = 98 then c.emit 7 [6]
    else if x = 66 then c.emit 7 [1]
    else if x = 100 then c.digitClass.2.emit 3 [c.digitClass.1]
    else if x = 68 then c.digitClass.2.emit 4 [c.digitClass.1]
    else if x = 119 then c.wordClass.2.emit 3 [c.wordClass.1]
    else if x = 87 then c.wordClass.2.emit 4 [c.wordClass.1]
    else match spaceEscape x with
      | some y => c.emit 0 [y]
      | none => none

/-- The default case of `parse_single_match`, `modules/kos_mod_re.c:1005-1011`. -/
def parseChar (c : Ctx) (x : Nat) : Option Ctx :=
  if x < 0x10000 then c.consume.emit 0 [x] else c.consume.emit 1 [x / 65536, x]

/-- `emit_multiplicity`, `modules/kos_mod_re.c:1017-1052`. -/
def emitMultiplicity (c : Ctx) (begin min max : Nat) : Option Ctx :=
  let pivot := c.buf.length
  let lazy := decide (c.peek = some 63)
  let id := c.counts
  let c1 := { (if lazy then c.consume else c) with counts := c.counts + 1 }
  match c1.emit (if lazy then 13 else 12) [0, id, min] with
  | none => none
  | some c2 =>
    let size := c2.buf.length - pivot
    let c3 := c2.rotate begin pivot
    let jump := c3.buf.length
    match c3.emit (if lazy then 15 else 14) [0, id, min, max] with
    | none => none
    | some c4 => some ((c4.patch begin c4.buf.length).patch jump (begin + size))

/-- The numbers in braces, `modules/kos_mod_re.c:1091-1126`; the brace has been
consumed. -/
def braces (input : List Nat) : Option (Nat × Nat × List Nat) :=
  match number input with
  | none => none
  | some (min, r) =>
    let rest :=
      if r.head? = some 44 then
        if r.tail.head? = some 125 then (if 0xFFFF < min then none else some (0xFFFF, r.tail))
        else match number r.tail with
          | none => none
          | some (max, r') => if max < min then none else some (max, r')
      else some (min, r)
    match rest with
    | none => none
    | some (max, r') =>
      if max = 0 then none
      else if r'.head? = some 125 then some (min, max, r'.tail)
      else none

/-- `parse_optional_multiplicity`, `modules/kos_mod_re.c:1054-1136`. -/
def parseMultiplicity (c : Ctx) (begin : Nat) : Option Ctx :=
  match c.peek with
  | none => some c
  | some x =>
    if x = 42 ∨ x = 43 ∨ x = 63 ∨ x = 123 then
      if c.canMult then
        let c1 := c.consume
        let done := if x = 42 then emitMultiplicity c1 begin 0 0xFFFF
          else if x = 43 then emitMultiplicity c1 begin 1 0xFFFF
          else if x = 63 then emitMultiplicity c1 begin 0 1
          else match braces c1.input with
            | none => none
            | some (min, max, r) => emitMultiplicity { c1 with input := r } begin min max
        done.map fun c2 => { c2 with canMult := false }
      else none
    else some c

/-- The jump, if there is one, goes to the end of the code,
`modules/kos_mod_re.c:1182-1183` and `1197-1198`. -/
def Ctx.patchEnd (c : Ctx) (jump : Option Nat) : Ctx :=
  match jump with
  | some j => c.patch j c.buf.length
  | none => c

/-- The end of `parse_alternative_match_seq`, `modules/kos_mod_re.c:1197-1210`. -/
def altEnd (c : Ctx) (jump : Option Nat) : Option Ctx :=
  let c1 := c.patchEnd jump
  match c1.peek with
  | none => some c1
  | some x => if x = 41 ∧ 0 < c1.depth then some c1 else none

/-- What is emitted at `|`, `modules/kos_mod_re.c:1175-1192`: the new context, with
the place of the next `FORK` being the end of the buffer, and the place of the
`JUMP`. -/
def altMark (c : Ctx) (fork : Nat) (jump : Option Nat) : Option (Ctx × Nat) :=
  let pivot := c.buf.length
  match c.consume.emit 10 [0] with
  | none => none
  | some c1 =>
    let c2 := c1.rotate fork pivot
    let c3 := c2.patchEnd jump
    let j := c3.buf.length
    match c3.emit 11 [0] with
    | none => none
    | some c4 => some ({ c4.patch fork c4.buf.length with canMult := false }, j)

/-- `parse_group` up to and with `BEGIN.GROUP`, `modules/kos_mod_re.c:899-936`: the
number of the group and the new context. -/
def groupBegin (c : Ctx) : Option (Nat × Ctx) :=
  if c.peek = some 63 then
    let c1 := c.consume
    if c1.peek = some 58 then
      match c1.consume.emit 8 [0xFFFF] with
      | none => none
      | some c2 => some (0xFFFF, { c2 with depth := c2.depth + 1 })
    else none
  else
    match { c with groups := c.groups + 1 }.emit 8 [c.groups] with
    | none => none
    | some c2 => some (c.groups, { c2 with depth := c2.depth + 1 })

/-- The end of `parse_group`, `modules/kos_mod_re.c:940-950`. -/
def groupEnd (id : Nat) (c : Ctx) : Option Ctx :=
  match { c with depth := c.depth - 1 }.expect 41 with
  | none => none
  | some c1 => c1.emit 9 [id]

mutual
/-- `parse_alternative_match_seq`, `modules/kos_mod_re.c:1160-1214`. -/
def parseAlt : Nat → Ctx → Option Ctx
  | 0, _ => none
  | n + 1, c =>
    match parseSeq n { c with canMult := false } with
    | none => none
    | some c1 => altLoop n c.buf.length none c1

/-- The loop of `parse_alternative_match_seq`, `modules/kos_mod_re.c:1171-1195`, and
what follows. -/
def altLoop : Nat → Nat → Option Nat → Ctx → Option Ctx
  | 0, _, _, _ => none
  | n + 1, fork, jump, c =>
    if c.peek = some 124 then
      match altMark c fork jump with
      | none => none
      | some (c1, j) =>
        match parseSeq n c1 with
        | none => none
        | some c2 => altLoop n c1.buf.length (some j) c2
    else altEnd c jump

/-- `parse_match_seq`, `modules/kos_mod_re.c:1138-1158`. -/
def parseSeq : Nat → Ctx → Option Ctx
  | 0, _ => none
  | n + 1, c =>
    if c.peek = none ∨ c.peek = some 124 ∨ c.peek = some 41 then some c
    else match parseSingle n c with
      | none => none
      | some c1 => match parseMultiplicity c1 c.buf.length with
        | none => none
        | some c2 => parseSeq n c2

/-- `parse_single_match`, `modules/kos_mod_re.c:953-1015`; the parenthesis is
`parse_group`, lines 899-951. -/
def parseSingle : Nat → Ctx → Option Ctx
  | 0, _ => none
  | n + 1, c =>
    match c.peek with
    | none => none
    | some x =>
      if x = 46 then c.consume.emit 2 []
      else if x = 94 then c.consume.emit 5 []
      else if x = 36 then c.consume.emit 6 []
      else if x = 92 then parseEscape c.consume
      else if x = 91 then parseClass c.consume
      else if x = 40 then
        match groupBegin c.consume with
        | none => none
        | some (id, c1) => match parseAlt n c1 with
          | none => none
          | some c2 => groupEnd id c2
      else if x = 124 ∨ x = 42 ∨ x = 43 ∨ x = 63 ∨ x = 123 ∨ (x = 41 ∧ 0 < c.depth) then some c
      else parseChar c x
end

/-- `RE_OBJ`, `modules/kos_mod_re.c:223-232`. -/
structure Prog where
  code : List Nat
  descs : List (Nat × Nat)
  data : List Range
  groups : Nat
  counts : Nat
  deriving DecidableEq

/-- `parse_re`, `modules/kos_mod_re.c:1305-1376`. -/
def compile (text : List Nat) : Option Prog :=
  (parseAlt (4 * text.length + 4) { input := text }).map fun c =>
    { code := c.buf, descs := c.descs, data := c.data, groups := c.groups % 65536, counts := c.counts % 65536 }

end Verif.Re
