/-
UTF-8 scanning, decoding and encoding: core/kos_utf8.c.  Bytes and code points are `Nat`.
A `const char *str` with `length` bytes left is the list of those bytes.
-/
namespace Verif.Utf8

/-- Outcome: a result, a reported error, or something undefined (read outside of the input, failed assertion). -/
inductive Out (α : Type)
  | ok (a : α)
  | err
  | ub
  deriving DecidableEq, Repr

/-- core/kos_utf8.c:10-34 `kos_utf8_len`. -/
def utf8Len : List Nat :=
  [1, 1, 1, 1, 1, 1, 1, 1, 1, 1, 1, 1, 1, 1, 1, 1,
   0, 0, 0, 0, 0, 0, 0, 0,
   2, 2, 2, 2, 3, 3, 4, 0]

/-- `kos_utf8_len[c >> 3]`; indices are below 32 for bytes. -/
def codeLen (c : Nat) : Nat := (utf8Len[c >>> 3]?).getD 0

/-- Types of escape sequences, values of `kos_escape_sequence_map` (core/kos_utf8.c:36-62,
core/kos_utf8_internal.h:10-14). -/
inductive Esc
  | invalid | interpolate | hex | zero
  | char (c : Nat)
  deriving DecidableEq, Repr

/-- core/kos_utf8.c:36-62 `kos_escape_sequence_map`, by byte. -/
def escMap (c : Nat) : Esc :=
  if c = 34 then .char 34            -- '"'
  else if c = 40 then .interpolate   -- '('
  else if c = 48 then .zero          -- '0'
  else if c = 92 then .char 92       -- '\\'
  else if c = 101 then .char 27      -- 'e'
  else if c = 102 then .char 12      -- 'f'
  else if c = 110 then .char 10      -- 'n'
  else if c = 114 then .char 13      -- 'r'
  else if c = 116 then .char 9       -- 't'
  else if c = 117 then .char 117     -- 'u'
  else if c = 118 then .char 11      -- 'v'
  else if c = 120 then .hex          -- 'x'
  else .invalid

/-- core/kos_utf8.c:64-90 `hex_map`. -/
def hexMap (c : Nat) : Nat :=
  if 48 ≤ c ∧ c ≤ 57 then c - 48
  else if 65 ≤ c ∧ c ≤ 70 then c - 55
  else if 97 ≤ c ∧ c ≤ 102 then c - 87
  else 16

/-- Result code of `parse_escape_sequence`: `KOS_INVALID_ESC`, `KOS_NOT_ESC`, or a code point. -/
inductive EscCode
  | invalidEsc
  | notEsc
  | code (c : Nat)
  deriving DecidableEq, Repr

/-- core/kos_utf8.c:110-125: digits of `\x{...}`. -/
def escBraces (gather : Nat) : List Nat → Out (EscCode × List Nat)
  | [] => .ub                                        -- read past the end
  | c :: str =>
    if c = 125 then .ok (.code gather, str)          -- '}'
    else if str = [] then .ok (.invalidEsc, str)     -- str >= end
    else if hexMap c > 15 then .ok (.invalidEsc, str)
    else if gather * 16 + hexMap c > 0x00FFFFFF then .ok (.invalidEsc, str)
    else escBraces (gather * 16 + hexMap c) str

/-- core/kos_utf8.c:95-148 `parse_escape_sequence`: code and remaining input. -/
def parseEsc (str : List Nat) : Out (EscCode × List Nat) :=
  match str with
  | [] => .ok (.invalidEsc, [])
  | e :: rest =>
    match escMap e with
    | .hex =>
      match rest with
      | a :: b :: rest2 =>
        if a = 123 ∧ b ≠ 125 then escBraces 0 (b :: rest2)
        else if hexMap b < 16 ∧ hexMap a < 16 then .ok (.code (hexMap a * 16 + hexMap b), rest2)
        else .ok (.invalidEsc, rest2)
      | _ => .ok (.invalidEsc, rest)                 -- fewer than two bytes left
    | .zero => .ok (.code 0, rest)
    | .invalid => .ok (.notEsc, e :: rest)
    | .interpolate => .ok (.notEsc, e :: rest)
    | .char c => .ok (.code c, rest)

/-! ### Length scan -/

/-- core/kos_utf8.c:222-228: continuation bytes in `KOS_utf8_get_len`. -/
def contScan : Nat → Nat → List Nat → Out (Nat × List Nat)
  | 0, code, s => .ok (code, s)
  | _ + 1, _, [] => .ub
  | n + 1, code, b :: s =>
    if b &&& 0xC0 ≠ 0x80 then .err else contScan n ((code <<< 6) ||| (b &&& 0x3F)) s

/-- core/kos_utf8.c:203-250: one character on the slow path; returns the new maximum and the remaining bytes. -/
def scanChar (esc : Bool) (maxC : Nat) (str : List Nat) : Out (Nat × List Nat) :=
  match str with
  | [] => .ub
  | c :: s =>
    let first : Out (Nat × Nat × List Nat) :=      -- code, max, rest
      if c < 0x80 then .ok (c, maxC, s)
      else if codeLen c = 0 ∨ codeLen c - 1 > s.length ∨ c < 0xC2 then .err
      else
        match contScan (codeLen c - 1) (c &&& ((0x80 >>> codeLen c) - 1)) s with
        | .ok (code, s) => .ok (code, if code > maxC then code else maxC, s)
        | .err => .err
        | .ub => .ub
    match first with
    | .err => .err
    | .ub => .ub
    | .ok (code, maxC, s) =>
      if esc ∧ code = 92 then
        match parseEsc s with
        | .err => .err
        | .ub => .ub
        | .ok (.invalidEsc, _) => .err
        | .ok (.notEsc, s) => .ok (maxC, s)
        | .ok (.code c, s) => .ok (if c > maxC then c else maxC, s)
      else .ok (maxC, s)

/-- Little-endian machine word of the given bytes (`*(const uintptr_t *)str`). -/
def wordOf : List Nat → Nat
  | [] => 0
  | b :: bs => b + 256 * wordOf bs

/-- `one * k`: the byte `k` repeated in a word of `w` bytes (core/kos_utf8.c:161-164). -/
def rep (k : Nat) : Nat → Nat
  | 0 => 0
  | w + 1 => k + 256 * rep k w

/-- core/kos_utf8.c:176-193: does the word contain a multi-byte character or (if escapes are processed) a backslash. -/
def wordSpecial (esc : Bool) (w word : Nat) : Bool :=
  (word &&& rep 0x80 w) ≠ 0 ||
    (esc && (((word ^^^ rep 0x23 w) + rep 1 w) % 256 ^ w &&& rep 0x80 w) ≠ 0)

/-- core/kos_utf8.c:173-197: skip whole words of plain characters; `w` is `sizeof(uintptr_t)`. -/
def fastPath (esc : Bool) (w : Nat) : Nat → Nat → List Nat → Nat × List Nat
  | 0, count, str => (count, str)
  | fuel + 1, count, str =>
    if str.length ≥ w then
      if wordSpecial esc w (wordOf (str.take w)) then (count, str)
      else fastPath esc w fuel (count + w) (str.drop w)
    else (count, str)

/-- core/kos_utf8.c:168-254: main loop.  `aligned n` tells whether the pointer with `n` bytes left is aligned.
Fuel bounds the number of rounds; running out would be `ub` (it does not happen, `getLen` supplies enough). -/
def scanLoop (esc : Bool) (w : Nat) (aligned : Nat → Bool) : Nat → Nat → Nat → List Nat → Out (Nat × Nat)
  | 0, _, _, _ => .ub
  | fuel + 1, count, maxC, str =>
    if str = [] then .ok (count, maxC)
    else
      let (count, str) := if aligned str.length then fastPath esc w str.length count str else (count, str)
      if str = [] then .ok (count, maxC)
      else
        match scanChar esc maxC str with
        | .ok (maxC, str) => scanLoop esc w aligned fuel (count + 1) maxC str
        | .err => .err
        | .ub => .ub

/-- core/kos_utf8.c:153-255 `KOS_utf8_get_len`: number of code points and maximum code, or failure (`~0U`). -/
def getLen (esc : Bool) (w : Nat) (aligned : Nat → Bool) (str : List Nat) : Out (Nat × Nat) :=
  scanLoop esc w aligned (str.length + 1) 0 0 str

/-! ### Decoders -/

/-- core/kos_utf8.c:270-276 (and 307-313, 344-350): `do { ... } while (--code_len)`, `n` more rounds,
in `width`-bit arithmetic. -/
def contDec (width : Nat) : Nat → Nat → List Nat → Out (Nat × List Nat)
  | 0, c, s => .ok (c, s)
  | _ + 1, _, [] => .ub
  | n + 1, c, b :: s =>
    if b &&& 0xC0 ≠ 0x80 then .err else contDec width n (((c <<< 6) ||| (b &&& 0x3F)) % 2 ^ width) s

/-- One round of `KOS_utf8_decode_8/16/32` (core/kos_utf8.c:262-291, 299-328, 336-365): element and remaining bytes. -/
def decodeChar (esc : Bool) (width : Nat) (str : List Nat) : Out (Nat × List Nat) :=
  match str with
  | [] => .ub
  | c :: s =>
    let first : Out (Nat × List Nat) :=
      if c > 0x7F then
        if codeLen c < 2 then .ub     -- the counter never reaches zero: reads on past any bound
        else contDec width (codeLen c - 1) (c &&& ((0x80 >>> codeLen c) - 1)) s
      else .ok (c, s)
    match first with
    | .err => .err
    | .ub => .ub
    | .ok (c, s) =>
      if esc ∧ c = 92 then
        match parseEsc s with
        | .err => .err
        | .ub => .ub
        | .ok (.invalidEsc, _) => .ub               -- assertion
        | .ok (.notEsc, s) => .ok (c, s)
        | .ok (.code c32, s) => if c32 < 2 ^ width then .ok (c32, s) else .ub   -- assertion
      else .ok (c, s)

/-- `while (str < end)` of the decoders; same fuel convention. -/
def decodeLoop (esc : Bool) (width : Nat) : Nat → List Nat → Out (List Nat)
  | 0, _ => .ub
  | fuel + 1, str =>
    if str = [] then .ok []
    else
      match decodeChar esc width str with
      | .err => .err
      | .ub => .ub
      | .ok (c, s) =>
        match decodeLoop esc width fuel s with
        | .ok out => .ok (c :: out)
        | .err => .err
        | .ub => .ub

/-- core/kos_utf8.c:257-292 / 294-329 / 331-366 `KOS_utf8_decode_8/16/32` for width 8, 16, 32. -/
def decode (esc : Bool) (width : Nat) (str : List Nat) : Out (List Nat) :=
  decodeLoop esc width (str.length + 1) str

/-! ### Encoders -/

/-- core/kos_utf8.c:368-379. -/
def calcSize8 (buf : List Nat) : Nat :=
  buf.foldl (fun size code => size + if code &&& 0x80 ≠ 0 then 2 else 1) 0
/-- core/kos_utf8.c:381-397. -/
def calcSize16 (buf : List Nat) : Nat :=
  buf.foldl (fun size code => size + if code < 1 <<< 7 then 1 else if code < 1 <<< (5+6) then 2 else 3) 0
/-- core/kos_utf8.c:399-421; `none` is `~0U`. -/
def calcSize32 : Nat → List Nat → Option Nat
  | size, [] => some size
  | size, code :: buf =>
    if code < 1 <<< 7 then calcSize32 (size + 1) buf
    else if code < 1 <<< (5+6) then calcSize32 (size + 2) buf
    else if code < 1 <<< (4+6+6) then calcSize32 (size + 3) buf
    else if code < 1 <<< (3+6+6+6) then calcSize32 (size + 4) buf
    else none

/-- core/kos_utf8.c:423-436. -/
def encode8 : List Nat → List Nat
  | [] => []
  | code :: str =>
    if code &&& 0x80 ≠ 0 then (0xC0 ||| (code >>> 6)) % 256 :: (0x80 ||| (code &&& 0x3F)) % 256 :: encode8 str
    else code % 256 :: encode8 str
/-- core/kos_utf8.c:438-456. -/
def encode16 : List Nat → List Nat
  | [] => []
  | code :: str =>
    if code < 1 <<< 7 then code % 256 :: encode16 str
    else if code < 1 <<< (5+6) then
      (0xC0 ||| (code >>> 6)) % 256 :: (0x80 ||| (code &&& 0x3F)) % 256 :: encode16 str
    else (0xE0 ||| (code >>> (6+6))) % 256 :: (0x80 ||| ((code >>> 6) &&& 0x3F)) % 256 ::
      (0x80 ||| (code &&& 0x3F)) % 256 :: encode16 str
/-- core/kos_utf8.c:458-482. -/
def encode32 : List Nat → List Nat
  | [] => []
  | code :: str =>
    if code < 1 <<< 7 then code % 256 :: encode32 str
    else if code < 1 <<< (5+6) then
      (0xC0 ||| (code >>> 6)) % 256 :: (0x80 ||| (code &&& 0x3F)) % 256 :: encode32 str
    else if code < 1 <<< (4+6+6) then (0xE0 ||| (code >>> (6+6))) % 256 ::
      (0x80 ||| ((code >>> 6) &&& 0x3F)) % 256 :: (0x80 ||| (code &&& 0x3F)) % 256 :: encode32 str
    else (0xF0 ||| (code >>> (6+6+6))) % 256 :: (0x80 ||| ((code >>> (6+6)) &&& 0x3F)) % 256 ::
      (0x80 ||| ((code >>> 6) &&& 0x3F)) % 256 :: (0x80 ||| (code &&& 0x3F)) % 256 :: encode32 str

end Verif.Utf8
