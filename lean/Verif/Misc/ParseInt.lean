/-
`kos_parse_int` (core/kos_misc.c:56-164).  Characters are their byte values (`Nat`);
`[begin, end)` is the remaining list.
-/
namespace Verif.Misc

/-- Outcome of `kos_parse_int`: a value, `KOS_ERROR_INTEGER_EXPECTED`, or C undefined behaviour. -/
inductive IntRes
  | ok (v : Int)
  | err
  | ub
  deriving DecidableEq, Repr

/-- core/kos_misc.c:83-87: characters accepted in a hexadecimal body. -/
def isHexCh (c : Nat) : Bool :=
  !((c < 48 || c > 57) && (c < 97 || c > 102) && (c < 65 || c > 70) && c != 95)
/-- core/kos_misc.c:99: characters accepted in a binary body. -/
def isBinCh (c : Nat) : Bool := !(c != 48 && c != 49 && c != 95)
/-- core/kos_misc.c:109: characters accepted in a decimal body. -/
def isDecCh (c : Nat) : Bool := !((c < 48 || c > 57) && c != 95)

/-- core/kos_misc.c:133-134: digit value, in `unsigned` arithmetic (mod 2^32). -/
def digitOf (c : Nat) : Nat :=
  if c ≤ 57 then (c + 2^32 - 48) % 2^32
  else if c < 97 then (c + 2^32 - 65 + 10) % 2^32
  else (c + 2^32 - 97 + 10) % 2^32

/-- core/kos_misc.c:121-128 tables `vmax` and `dmax`, indexed by radix and `minus`. -/
def vmaxOf (radix : Nat) : Nat :=
  if radix = 16 then (2^64 - 1) / 2^4 else if radix = 2 then (2^64 - 1) / 2 else (2^64 - 1) / 20
def dmaxOf (radix : Nat) (minus : Bool) : Nat :=
  if radix = 16 then 15 else if radix = 2 then 1 else if minus then 8 else 7

/-- core/kos_misc.c:130-151: the accumulation loop over `uint64_t v`. `none` is the error break. -/
def accum (radix vmax dmax : Nat) : Nat → List Nat → Option Nat
  | v, [] => some v
  | v, c :: cs =>
    if c = 95 then accum radix vmax dmax v cs
    else if v > vmax then none
    else if v = vmax ∧ digitOf c > dmax then none
    else accum radix vmax dmax ((v * radix + digitOf c) % 2^64) cs

/-- `(int64_t)v` for a `uint64_t`. -/
def toI64 (v : Nat) : Int := if v < 2^63 then v else (v : Int) - 2^64

/-- core/kos_misc.c:153-158: the final sign application; `-(int64_t)v` is undefined for INT64_MIN. -/
def finish (minus : Bool) (v : Nat) : IntRes :=
  if minus then (if toI64 v = -2^63 then .ub else .ok (-(toI64 v))) else .ok (toI64 v)

/-- core/kos_misc.c:75-163 once the radix is known and `begin` is past the prefix. -/
def parseBody (radix : Nat) (minus : Bool) (body : List Nat) : IntRes :=
  let good := if radix = 16 then isHexCh else if radix = 2 then isBinCh else isDecCh
  if body.all good = false ∨ body = [] then .err
  else
    match accum radix (vmaxOf radix) (dmaxOf radix minus) 0 body with
    | none => .err
    | some v => finish minus v

/-- core/kos_misc.c:69-79: radix prefix recognition (`begin + 2 < end`). -/
def parseUnsigned (minus : Bool) (s : List Nat) : IntRes :=
  match s with
  | 48 :: t :: c :: rest =>
    if t = 120 ∨ t = 88 then parseBody 16 minus (c :: rest)
    else if t = 98 ∨ t = 66 then parseBody 2 minus (c :: rest)
    else parseBody 10 minus s
  | _ => parseBody 10 minus s

/-- core/kos_misc.c:56-68 `kos_parse_int`. -/
def parseInt (s : List Nat) : IntRes :=
  match s with
  | 45 :: rest => parseUnsigned true rest
  | 43 :: rest => parseUnsigned false rest
  | _ => parseUnsigned false s

/-! ### Independent specification -/
namespace Spec

/-- The three notations. -/
inductive Radix | dec | hex | bin
  deriving DecidableEq, Repr

def Radix.base : Radix → Nat | .dec => 10 | .hex => 16 | .bin => 2

/-- Digit characters of a notation, with their values. -/
def digitVal (r : Radix) (c : Nat) : Option Nat :=
  match r with
  | .dec => if 48 ≤ c ∧ c ≤ 57 then some (c - 48) else none
  | .bin => if c = 48 then some 0 else if c = 49 then some 1 else none
  | .hex => if 48 ≤ c ∧ c ≤ 57 then some (c - 48)
            else if 97 ≤ c ∧ c ≤ 102 then some (c - 87)
            else if 65 ≤ c ∧ c ≤ 70 then some (c - 55) else none

/-- An integer literal: optional sign character, notation with the letter used in the prefix, and
a non-empty body of digits and underscores. -/
structure Literal where
  sign : Option Bool   -- some true: '-', some false: '+'
  radix : Radix
  upper : Bool         -- prefix letter in upper case
  body : List Nat

def Literal.WF (l : Literal) : Prop :=
  l.body ≠ [] ∧ ∀ c ∈ l.body, c = 95 ∨ (digitVal l.radix c).isSome

/-- The text of a literal. -/
def Literal.text (l : Literal) : List Nat :=
  (match l.sign with | none => [] | some true => [45] | some false => [43]) ++
  (match l.radix, l.upper with
    | .dec, _ => []
    | .hex, false => [48, 120] | .hex, true => [48, 88]
    | .bin, false => [48, 98] | .bin, true => [48, 66]) ++ l.body

/-- Positional value of a digit sequence. -/
def positional (base : Nat) : List Nat → Nat
  | [] => 0
  | d :: ds => d * base ^ ds.length + positional base ds

/-- Magnitude denoted by the body: underscores carry no meaning. -/
def Literal.magnitude (l : Literal) : Nat :=
  positional l.radix.base (l.body.filterMap (digitVal l.radix))

def Literal.negative (l : Literal) : Bool := l.sign == some true

/-- Two's complement reading of a 64-bit pattern. -/
def signed64 (x : Int) : Int := (x + 2^63) % 2^64 - 2^63

/-- What the literal means, if it is representable. -/
def Literal.meaning (l : Literal) : Option Int :=
  let v : Int := if l.negative then -(l.magnitude : Int) else l.magnitude
  match l.radix with
  | .dec => if -2^63 ≤ v ∧ v < 2^63 then some v else none
  | _ => if l.magnitude < 2^64 then some (signed64 v) else none

end Spec
end Verif.Misc
