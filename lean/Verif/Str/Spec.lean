/-! What searching means, with no reference to the code. -/
namespace Verif.Str

/-- Position `q` is `p`, or comes after `p` in the direction of the search. -/
def Ahead (rev : Bool) (p q : Int) : Prop := if rev then q ≤ p else p ≤ q

/-- `r` is the nearest position from `pos` on that satisfies `P`, and -1 if there is none. -/
def Nearest (P : Int → Prop) (rev : Bool) (pos r : Int) : Prop :=
  (P r ∧ Ahead rev pos r ∧ ∀ q, P q → Ahead rev pos q → Ahead rev r q) ∨ (r = -1 ∧ ∀ q, Ahead rev pos q → ¬ P q)

/-- Pattern `ds` occurs in `cs` at position `p`. -/
def Occurs (cs ds : List Nat) (p : Int) : Prop := 0 ≤ p ∧ ds <+: cs.drop p.toNat

/-- The character at position `p` belongs to the set, or does not belong to it. -/
def Qualifies (cs set : List Nat) (inside : Bool) (p : Int) : Prop := ∃ c, 0 ≤ p ∧ cs[p.toNat]? = some c ∧ (c ∈ set ↔ inside = true)

/-- A position argument: negative numbers count from the end of the string, void stands for `dflt`. -/
def position (len : Nat) (dflt : Int) : Option Int → Int
  | none => dflt
  | some i => if i < 0 then i + len else i

end Verif.Str
