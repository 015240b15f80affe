import Verif.Line.Lemmas

/-! What editing a line means: the line is a list of characters, with a place for the cursor, between older and newer lines. -/
namespace Verif.Line

structure Text where
  chars : List (List Nat)
  cur : Nat
  older : List (List (List Nat))
  newer : List (List (List Nat))
  deriving DecidableEq, Repr

/-- Letters, digits and the underscore. -/
def wordBytes : List Nat :=
  ['a', 'b', 'c', 'd', 'e', 'f', 'g', 'h', 'i', 'j', 'k', 'l', 'm', 'n', 'o', 'p', 'q', 'r', 's', 't', 'u', 'v', 'w', 'x', 'y', 'z',
    'A', 'B', 'C', 'D', 'E', 'F', 'G', 'H', 'I', 'J', 'K', 'L', 'M', 'N', 'O', 'P', 'Q', 'R', 'S', 'T', 'U', 'V', 'W', 'X', 'Y', 'Z',
    '0', '1', '2', '3', '4', '5', '6', '7', '8', '9', '_'].map Char.toNat

/-- If the character at `j` is part of a word. -/
def wordAt (t : List (List Nat)) (j : Nat) : Bool :=
  match t[j]? with
  | some (b :: _) => wordBytes.contains b
  | _ => false

/-- The beginning of a word, or of the line. -/
def Begins (t : List (List Nat)) (j : Nat) : Prop := j = 0 ∨ (wordAt t j = true ∧ wordAt t (j - 1) = false)

/-- The end of a word, or of the line. -/
def Ends (t : List (List Nat)) (j : Nat) : Prop := j = t.length ∨ (wordAt t j = false ∧ wordAt t (j - 1) = true)

/-- The nearest beginning of a word to the left of `n`. -/
def NearestLeft (t : List (List Nat)) (n m : Nat) : Prop :=
  (n = 0 ∧ m = 0) ∨ (m < n ∧ Begins t m ∧ ∀ j, m < j → j < n → ¬ Begins t j)

/-- The nearest end of a word to the right of `n`. -/
def NearestRight (t : List (List Nat)) (n m : Nat) : Prop :=
  (n = t.length ∧ m = n) ∨ (n < m ∧ m ≤ t.length ∧ Ends t m ∧ ∀ j, n < j → j < m → ¬ Ends t j)

/-- Without the characters from `a` to `b`, with the cursor where they were. -/
def Text.cut (z : Text) (a b : Nat) : Text := { z with chars := z.chars.take a ++ z.chars.drop b, cur := a }

/-- `p` is the width of the prompt. -/
def Means (p : Nat) (z : Text) (v : Ev) (z' : Text) : Prop :=
  match v with
  | .text c => z' = { z with chars := z.chars.take z.cur ++ c :: z.chars.drop z.cur, cur := z.cur + 1 }
  | .left => z' = { z with cur := z.cur - 1 }
  | .right => z' = { z with cur := min (z.cur + 1) z.chars.length }
  | .wordLeft => ∃ m, NearestLeft z.chars z.cur m ∧ z' = { z with cur := m }
  | .wordRight => ∃ m, NearestRight z.chars z.cur m ∧ z' = { z with cur := m }
  | .home => z' = { z with cur := 0 }
  | .fin => z' = { z with cur := z.chars.length }
  | .up =>
    match z.older with
    | [] => z' = z
    | o :: os => z' = ⟨o, o.length, os, z.chars :: z.newer⟩
  | .down =>
    match z.newer with
    | [] => z' = z
    | o :: os => z' = ⟨o, o.length, z.chars :: z.older, os⟩
  | .backspace => z' = z.cut (z.cur - 1) z.cur
  | .delete => z' = z.cut z.cur (z.cur + 1)
  | .deleteWordLeft => ∃ m, NearestLeft z.chars z.cur m ∧ z' = z.cut m z.cur
  | .deleteWordRight => ∃ m, NearestRight z.chars z.cur m ∧ z' = z.cut z.cur m
  | .killRight => z' = { z with chars := z.chars.take z.cur }
  | .killAll => z' = { z with chars := [], cur := 0 }
  | .refresh => z' = z
  /- if the window is too narrow, the cursor can move to the left -/
  | .resize w => ∃ m, m ≤ z.cur ∧ (z.cur + p ≤ w → z.cur + p ≤ 9999 → m = z.cur) ∧ z' = { z with cur := m }

inductive MeansAll (p : Nat) : Text → List Ev → Text → Prop
  | nil (z : Text) : MeansAll p z [] z
  | cons {z z' z'' : Text} {v : Ev} {vs : List Ev} (h : Means p z v z') (t : MeansAll p z' vs z'') : MeansAll p z (v :: vs) z''

/-- Only complete characters are typed. -/
def Legal (v : Ev) : Prop :=
  match v with
  | .text c => IsChar c
  | _ => True

/-- How many bytes are typed. -/
def typed : List Ev → Nat
  | [] => 0
  | .text c :: vs => c.length + typed vs
  | _ :: vs => typed vs

end Verif.Line
