import Verif.Misc.ParseDouble
import Mathlib.Algebra.Order.Field.Rat
import Mathlib.Algebra.Order.Field.Power
import Mathlib.Tactic.Positivity
/-
What a floating-point literal and a double denote, as rational numbers.  Nothing here refers to the model of the parser,
except for the notation of integers, which is that of `Verif.Misc.Spec`.
-/
namespace Verif.Misc.Spec

/-- A floating-point literal: sign, digits before and after the point, and the exponent with its letter (`true` for a capital). -/
structure FloatLit where
  sign : Option Bool   -- some true: '-', some false: '+'
  int : List Nat
  frac : Option (List Nat)
  exp : Option (Bool × Literal)

/-- Digits and underscores. -/
def Digits (b : List Nat) : Prop := ∀ c ∈ b, c = 95 ∨ (48 ≤ c ∧ c ≤ 57)

structure FloatLit.WF (l : FloatLit) : Prop where
  int : l.int ≠ [] ∧ Digits l.int
  frac : ∀ f, l.frac = some f → Digits f
  exp : ∀ u e, l.exp = some (u, e) → e.WF ∧ e.radix = .dec

def FloatLit.fracText (l : FloatLit) : List Nat := match l.frac with | none => [] | some f => 46 :: f
def FloatLit.expText (l : FloatLit) : List Nat :=
  match l.exp with | none => [] | some (upper, e) => (if upper then 69 else 101) :: e.text

/-- The text of a literal. -/
def FloatLit.text (l : FloatLit) : List Nat :=
  (match l.sign with | none => [] | some true => [45] | some false => [43]) ++ (l.int ++ (l.fracText ++ l.expText))

def FloatLit.negative (l : FloatLit) : Bool := l.sign == some true

/-- All digits in a row. -/
def FloatLit.number (l : FloatLit) : Nat :=
  positional 10 ((l.int ++ l.frac.getD []).filterMap (digitVal .dec))

/-- The exponent which is written. -/
def FloatLit.written (l : FloatLit) : Int :=
  match l.exp with
  | none => 0
  | some (_, e) => if e.negative then -(e.magnitude : Int) else e.magnitude

/-- The power of ten by which the digits in a row are multiplied. -/
def FloatLit.scale (l : FloatLit) : Int := l.written - ((l.frac.getD []).filterMap (digitVal .dec)).length

/-- What the literal denotes, without its sign. -/
def FloatLit.value (l : FloatLit) : ℚ := l.number * 10 ^ l.scale

/-! ### Doubles: IEEE 754 -/

def expField (bits : Nat) : Nat := bits / 2 ^ 52 % 2 ^ 11
def fracField (bits : Nat) : Nat := bits % 2 ^ 52
def signBit (bits : Nat) : Bool := bits / 2 ^ 63 % 2 = 1

/-- Unit in the last place of a finite number. -/
def ulp (bits : Nat) : ℚ := 2 ^ ((max (expField bits) 1 : Int) - 1075)

/-- A finite number, without its sign. -/
def magnitude (bits : Nat) : ℚ :=
  (if expField bits = 0 then (fracField bits : ℚ) else 2 ^ 52 + fracField bits) * ulp bits

end Verif.Misc.Spec
