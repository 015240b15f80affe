import Verif.Lib.Json
import Verif.Misc.FloatSpec
import Verif.Utf8.Enc
/-
Which texts of JSON show a value.  The texts are lists of characters.
-/
namespace Verif.Json.Spec
open Verif.Misc.Spec (Literal FloatLit)

/-- Whitespace between tokens; a text has at most 65535 characters. -/
def Ws (w : List Nat) : Prop := (∀ c ∈ w, c = 32 ∨ c = 9 ∨ c = 10 ∨ c = 13) ∧ w.length ≤ 65535

/-- Digits, without zeroes in front. -/
def Whole (d : List Nat) : Prop := d ≠ [] ∧ (∀ c ∈ d, 48 ≤ c ∧ c ≤ 57) ∧ ∀ t, d = 48 :: t → t = []

/-- The number which digits denote. -/
def number (d : List Nat) : Nat := (⟨none, .dec, false, d⟩ : Literal).magnitude

/-- A number with a fraction, an exponent, or both. -/
structure Decimal (l : FloatLit) : Prop where
  sign : l.sign = none
  int : Whole l.int
  frac : ∀ f, l.frac = some f → ∀ c ∈ f, 48 ≤ c ∧ c ≤ 57
  exp : ∀ u e, l.exp = some (u, e) → e.radix = .dec ∧ Whole e.body
  some : l.frac ≠ none ∨ l.exp ≠ none
  size : l.text.length ≤ 65535

/-- What may stand between quotes: no quotes, backslashes and ends of lines, and no more than 65532 bytes. -/
def Str (s : List Nat) : Prop :=
  (∀ c ∈ s, c < 2097152 ∧ c ≠ 34 ∧ c ≠ 92 ∧ c ≠ 10 ∧ c ≠ 13) ∧ (s.flatMap Utf8.utf8).length + 2 < 65535

/-- The object which is made of members: a member whose key was there before replaces the value. -/
inductive Merged : List (List Nat × V) → List (List Nat × V) → Prop
  | nil : Merged [] []
  | new (l o k v) : Merged l o → k ∉ l.map Prod.fst → Merged (l ++ [(k, v)]) (o ++ [(k, v)])
  | again (l a b k v w) : Merged l (a ++ (k, v) :: b) → Merged (l ++ [(k, w)]) (a ++ (k, w) :: b)

inductive Item
  | val (v : V)
  | elems (l : List V)
  | members (l : List (List Nat × V))

/-- The text shows the value; the elements of an array, or the members of an object, are shown with the whitespace around them. -/
inductive Shows : Item → List Nat → Prop
  | null : Shows (.val .void) (ascii "null")
  | true : Shows (.val (.bool true)) (ascii "true")
  | false : Shows (.val (.bool false)) (ascii "false")
  | int (d) : Whole d → number d < 2 ^ 63 → Shows (.val (.int (number d))) d
  | negInt (d) : Whole d → number d < 2 ^ 63 → Shows (.val (.int (-(number d : Int)))) (45 :: d)
  | flt (l b) : Decimal l → Misc.parseDouble l.text = .ok b → Shows (.val (.flt b)) l.text
  | negFlt (l b) : Decimal l → Misc.parseDouble l.text = .ok b → Shows (.val (.flt (b + 2 ^ 63))) (45 :: l.text)
  | str (s) : Str s → Shows (.val (.str s)) (34 :: s ++ [34])
  | empty (w) : Ws w → Shows (.val (.arr [])) (91 :: w ++ [93])
  | arr (l t) : Shows (.elems l) t → Shows (.val (.arr l)) (91 :: t ++ [93])
  | one (v t a b) : Shows (.val v) t → Ws a → Ws b → Shows (.elems [v]) (a ++ t ++ b)
  | more (v t a b l u) : Shows (.val v) t → Ws a → Ws b → Shows (.elems l) u → Shows (.elems (v :: l)) (a ++ t ++ b ++ 44 :: u)
  | noMembers (w) : Ws w → Shows (.val (.obj [])) (123 :: w ++ [125])
  | obj (l o t) : Shows (.members l) t → Merged l o → Shows (.val (.obj o)) (123 :: t ++ [125])
  | oneMember (k v t a b c d) : Str k → Shows (.val v) t → Ws a → Ws b → Ws c → Ws d →
      Shows (.members [(k, v)]) (a ++ (34 :: k ++ [34]) ++ b ++ 58 :: (c ++ t ++ d))
  | moreMembers (k v t a b c d l u) : Str k → Shows (.val v) t → Ws a → Ws b → Ws c → Ws d → Shows (.members l) u →
      Shows (.members ((k, v) :: l)) (a ++ (34 :: k ++ [34]) ++ b ++ 58 :: (c ++ t ++ d ++ 44 :: u))

end Verif.Json.Spec
