/-!
Model of `KOS_get_integer`, core/kos_utils.c:164-200.  A double is given by its 64 bits.  Comparison, `floor` and the conversion to `int64_t` are those
of IEEE 754 and of C: the conversion is undefined for what is not in the range of `int64_t`, also for NaN.
-/
namespace Verif.GetInt

inductive Res where
  | ok (z : Int)
  | exception
  | ub
  deriving DecidableEq, Repr

inductive Obj where
  /-- small integers and `OBJ_INTEGER` -/
  | int (v : Int)
  | float (bits : Nat)
  | other
  deriving DecidableEq, Repr

def expo (b : Nat) : Nat := b / 4503599627370496 % 2048

def frac (b : Nat) : Nat := b % 4503599627370496

def isNan (b : Nat) : Bool := expo b == 2047 && frac b != 0

/-- Doubles which are not NaN are ordered like these numbers. -/
def key (b : Nat) : Int := if b < 9223372036854775808 then b else 9223372036854775808 - (b : Int)

def le (a b : Nat) : Bool := !isNan a && !isNan b && key a ≤ key b

/-- The significand and the exponent of a finite number. -/
def mant (b : Nat) : Nat := if expo b = 0 then frac b else 4503599627370496 + frac b

def power (b : Nat) : Nat := if expo b = 0 then 1 else expo b

/-- `floor` of a finite number -/
def floor (b : Nat) : Int :=
  if b < 9223372036854775808 then
    if 1075 ≤ power b then (mant b * 2 ^ (power b - 1075) : Nat) else (mant b / 2 ^ (1075 - power b) : Nat)
  else
    if 1075 ≤ power b then -(mant b * 2 ^ (power b - 1075) : Nat)
    else -((mant b + 2 ^ (1075 - power b) - 1) / 2 ^ (1075 - power b) : Nat)

/-- core/kos_utils.c:188 -/
def toInt (b : Nat) : Res :=
  if expo b = 2047 then .ub
  else if -9223372036854775808 ≤ floor b ∧ floor b < 9223372036854775808 then .ok (floor b)
  else .ub

/-- core/kos_utils.c:164-200; the constants are -9223372036854775808.0 and 9223372036854775808.0 -/
def getInteger : Obj → Res
  | .int v => .ok v
  | .float b => if le b 0xC3E0000000000000 || le 0x43E0000000000000 b then .exception else toInt b
  | .other => .exception

end Verif.GetInt
