import Verif.Misc.ParseInt
/-
Text to double: `kos_parse_double` and `kos_parse_numeric`, core/kos_misc.c:38-54 and 166-516.

Characters are bytes, `uint64_t` is a `Nat` reduced modulo 2^64, `int` is `Int`: no `int` overflows, because the text
is far shorter than 2^31 characters.  A double is its 64-bit pattern.
-/
namespace Verif.Misc

/-- Outcome of `kos_parse_double`: the bits of the number, an error, or a failed assertion or undefined operation. -/
inductive DblRes
  | ok (bits : Nat)
  | err
  | ub
  deriving DecidableEq, Repr

/-- core/kos_misc.c:166-175 `shift_digit`.  `exponent` is never negative here, so the shift stays below 64. -/
def shiftDigit (digit : Nat) (exponent : Int) : Nat :=
  let shift := 59 - exponent
  if shift ≥ 0 then (digit <<< shift.toNat) % 2 ^ 64
  else if shift ≥ -4 then digit >>> (-shift).toNat
  else 0

/-- core/kos_misc.c:191-226 `multiply_by_10_and_add` -/
def mulAdd (m : Nat) (e : Int) (digit : Nat) : Nat × Int :=
  let high1 := 5 * (m >>> 3)
  let low := 5 * (m &&& 7)
  let high := (high1 + (low >>> 3) + shiftDigit digit e) % 2 ^ 64
  if high.testBit 63 then
    let carry := if (low &&& 0xF) ≠ 4 then low &&& 4 else 0
    ((high + (carry >>> 2)) % 2 ^ 64, e + 4)
  else if high.testBit 62 then
    let carry := if (low &&& 0x7) ≠ 2 then low &&& 2 else 0
    (((high <<< 1) + ((low >>> 2) &&& 1) + (carry >>> 1)) % 2 ^ 64, e + 3)
  else if high.testBit 61 then
    let carry := if (low &&& 3) = 3 then 1 else 0
    (((high <<< 2) + ((low >>> 1) &&& 3) + carry) % 2 ^ 64, e + 2)
  else
    (((high <<< 3) + (low &&& 7) + (low &&& 1)) % 2 ^ 64, e + 1)

/-- core/kos_misc.c:228-255 `divide_by_10`; `none` is a failed assertion. -/
def divTen (m : Nat) (e : Int) : Option (Nat × Int) :=
  let high := (m >>> 32 <<< 32) / 5
  let low := ((m <<< 32) % 2 ^ 64 / 5 + high % 2 ^ 32) % 2 ^ 64
  if high >>> 62 ≠ 0 then none
  else
    let r :=
      if high.testBit 61 then
        let carry := if (low &&& 0x7FFFFFFF) ≠ 0x20000000 then low &&& 0x20000000 else 0
        (((high <<< 2) + ((low + carry) % 2 ^ 64) >>> 30) % 2 ^ 64, e - 3)
      else
        let carry := if (low &&& 0x3FFFFFFF) ≠ 0x10000000 then low &&& 0x10000000 else 0
        (((high <<< 3) + ((low + carry) % 2 ^ 64) >>> 29) % 2 ^ 64, e - 4)
    if r.1.testBit 63 then some r else none

/-- core/kos_misc.c:285-306: leading zeroes and underscores; the rest, `dot_pos` and `decimal_exponent`. -/
def skipZeros : List Nat → Int → Int → List Nat × Int × Int
  | [], dot, dexp => ([], dot, dexp)
  | c :: s, dot, dexp =>
    if c = 95 then skipZeros s dot dexp
    else if c = 48 then skipZeros s dot (if dot ≥ 0 then dexp - 1 else dexp)
    else if c = 46 then skipZeros s 0 dexp
    else (c :: s, dot, dexp)

/-- core/kos_misc.c:313-341: up to the exponent: the characters before it, the rest, `num_digits` and `dot_pos`. -/
def findExponent : List Nat → Nat → Int → Option (List Nat × List Nat × Nat × Int)
  | [], num, dot => some ([], [], num, dot)
  | c :: s, num, dot =>
    if 48 ≤ c ∧ c ≤ 57 then (findExponent s (num + 1) dot).map fun r => (c :: r.1, r.2)
    else if c = 101 ∨ c = 69 then some ([], c :: s, num, dot)
    else if c = 95 then (findExponent s num dot).map fun r => (c :: r.1, r.2)
    else if c = 46 then
      if dot ≠ -1 then none else (findExponent s num num).map fun r => (c :: r.1, r.2)
    else none

/-- core/kos_misc.c:390-404: the first digit, which sets the exponent. -/
def firstDigit (d : Nat) (e : Int) : Nat × Int :=
  let e := if d > 7 then e + 3 else if d > 3 then e + 2 else if d > 1 then e + 1 else e
  ((d <<< (63 - e).toNat) % 2 ^ 64, e)

/-- core/kos_misc.c:377-425: consecutive digits; mantissa, exponent and decimal exponent. -/
def digitLoop (num : Nat) : List Nat → Nat → Int → Nat → Int → Nat × Int × Int
  | [], m, e, _, dexp => (m, e, dexp)
  | c :: s, m, e, i, dexp =>
    if c = 95 ∨ c = 46 then digitLoop num s m e i dexp
    else if m = 0 then
      let r := firstDigit (c - 48) e
      digitLoop num s r.1 r.2 (i + 1) dexp
    else if e > 53 then
      let r := mulAdd m e (if c - 48 ≥ 5 then 10 else 5)
      (r.1, r.2, dexp + ((num : Int) - (i + 1)))
    else
      let r := mulAdd m e (c - 48)
      digitLoop num s r.1 r.2 (i + 1) dexp

/-- core/kos_misc.c:432-437 -/
def divLoop : Nat → Nat → Int → Option (Nat × Int)
  | 0, m, e => some (m, e)
  | n + 1, m, e =>
    match divTen m e with
    | none => none
    | some (m, e) => divLoop n m e

/-- core/kos_misc.c:438-443 -/
def mulLoop : Nat → Nat → Int → Nat × Int
  | 0, m, e => (m, e)
  | n + 1, m, e => mulLoop n (mulAdd m e 0).1 (mulAdd m e 0).2

/-- core/kos_misc.c:427-443: the decimal exponent is applied. -/
def applyExponent (m : Nat) (e dexp : Int) : Option (Nat × Int) :=
  let dexp := if m = 0 then 0 else dexp
  if dexp < 0 then divLoop (-dexp).toNat m e else some (mulLoop dexp.toNat m e)

/-- core/kos_misc.c:449-458; as many rounds as the exponent is too low. -/
def denormLoop : Nat → Nat → Int → Nat × Int
  | 0, m, e => (m, e)
  | n + 1, m, e => if e < -0x3FF then (if m ≠ 0 then denormLoop n (m >>> 1) (e + 1) else (m, -0x3FF)) else (m, e)

/-- core/kos_misc.c:466-480: rounding to 53 bits. -/
def roundMantissa (m : Nat) (e : Int) : Nat × Int :=
  if m ≠ 0 then
    let low := m % 2 ^ 32
    let carry := if (low &&& 0xFFF) ≠ 0x400 then low &&& 0x400 else 0
    let m := (m >>> 11) + (carry >>> 10)
    if m.testBit 53 then (m >>> 1, e + 1) else (m, e)
  else (m, e)

/-- core/kos_misc.c:446-490: from mantissa and exponent to a double. -/
def assemble (sign : Bool) (m : Nat) (e : Int) : DblRes :=
  if e > 0x3FF then .err
  else
    let r := denormLoop (-0x3FF - e).toNat m e
    let m := if r.2 = -0x3FF then r.1 >>> 1 else r.1
    let e := if m = 0 then -0x3FF else r.2
    let r := roundMantissa m e
    .ok ((if sign then 2 ^ 63 else 0) ||| ((r.2 + 0x3FF).toNat <<< 52) ||| (r.1 &&& (2 ^ 52 - 1)))

/-- core/kos_misc.c:343-363: the exponent which follows the digits, if any. -/
def exponentOf (s : List Nat) : IntRes :=
  match s with
  | [] => .ok 0
  | _ :: s =>
    if s = [] then .err
    else
      match parseInt s with
      | .ok e => if e > 308 ∨ e < -324 then .err else .ok e
      | .err => .err
      | .ub => .ub

/-- core/kos_misc.c:285-490: after the sign. -/
def parseMagnitude (sign : Bool) (s : List Nat) : DblRes :=
  let (s, dot, dexp) := skipZeros s (-1) 0
  if s = [] then assemble sign 0 0
  else
    match findExponent s 0 dot with
    | none => .err
    | some (digits, rest, num, dot) =>
      match exponentOf rest with
      | .err => .err
      | .ub => .ub
      | .ok e =>
        let dexp := dexp + e
        let dexp := if dot ≥ 0 then dexp + (dot - num) else dexp
        if num = 0 then assemble sign 0 0
        else
          let (m, e, dexp) := digitLoop num digits 0 0 0 dexp
          match applyExponent m e dexp with
          | none => .ub
          | some (m, e) => assemble sign m e

/-- core/kos_misc.c:257-494 `kos_parse_double` -/
def parseDouble (s : List Nat) : DblRes :=
  match s with
  | [] => .err
  | c :: s =>
    let sign : Bool := c = 45
    let s := if c = 45 ∨ c = 43 then s else c :: s
    if s = [] then .err else parseMagnitude sign s

/-- core/kos_misc.c:38-54 `kos_is_integer` -/
def isInteger : List Nat → Bool
  | [] => true
  | c :: s =>
    if c = 120 ∨ c = 88 ∨ c = 98 ∨ c = 66 then true
    else if c = 46 ∨ c = 101 ∨ c = 69 then false
    else isInteger s

/-- A number: `KOS_NUMERIC`. -/
inductive Numeric
  | int (v : Int)
  | float (bits : Nat)
  deriving DecidableEq, Repr

inductive NumRes
  | ok (n : Numeric)
  | err
  | ub
  deriving DecidableEq, Repr

/-- core/kos_misc.c:496-516 `kos_parse_numeric` -/
def parseNumeric (s : List Nat) : NumRes :=
  if isInteger s then
    match parseInt s with
    | .ok v => .ok (.int v)
    | .err => .err
    | .ub => .ub
  else
    match parseDouble s with
    | .ok b => .ok (.float b)
    | .err => .err
    | .ub => .ub

end Verif.Misc
