import Verif.Re.Match
import Verif.Re.Spec

/-!
# The words a regular expression is compiled to

`Code` relates the trees of the specification to the words which `parse_re` makes
of them.  It is used between the proofs about the compiler and those about the
matcher; no claim is stated with it.
-/

namespace Verif.Re

open Spec

/-- Class `id` has exactly the characters given by `P`. -/
def ClassIs (T : Nat → Option (List Range)) (id : Nat) (P : Nat → Bool) : Prop :=
  ∃ rs, T id = some rs ∧ ∀ c, matchClass rs c = some (P c)

def boundaryKind : Boundary → Nat
  | .begin => 2 | .end => 4 | .either => 6 | .neither => 1

def negInstr (neg : Bool) : Nat := if neg then 4 else 3

/-- The words of an atom. -/
def AtomCode (T : Nat → Option (List Range)) : Atom → List Nat → Prop
  | .char c, w => (c < 65536 ∧ w = [0, c]) ∨ (65536 ≤ c ∧ w = [1, c / 65536, c % 65536])
  | .escaped c, w => w = [0, c]
  | .control c, w => w = [0, c.code]
  | .any, w => w = [2]
  | .lineBegin, w => w = [5]
  | .lineEnd, w => w = [6]
  | .boundary b, w => w = [7, boundaryKind b]
  | .digit neg, w => ∃ id, w = [negInstr neg, id] ∧ ClassIs T id fun c => decide (48 ≤ c) && decide (c ≤ 57)
  | .word neg, w => ∃ id, w = [negInstr neg, id] ∧ ClassIs T id wordChar
  | .cls neg items, w => ∃ id, w = [negInstr neg, id] ∧ ClassIs T id (listed items)

/-- The words of something repeated. -/
def repCode (lazy : Bool) (k min max : Nat) (b : List Nat) : List Nat :=
  [if lazy then 13 else 12, b.length + 9, k, min] ++ b ++
    [if lazy then 15 else 14, word16 (-(b.length : Int)), k, min, max]

def quantCode (q : Option Quant) (k : Nat) (b : List Nat) : List Nat :=
  match q with
  | none => b
  | some q => repCode q.lazy k q.times.min q.times.limit b

def quantCounts (q : Option Quant) : Nat := if q.isSome then 1 else 0

def groupCode (id : Nat) (b : List Nat) : List Nat := [8, id] ++ b ++ [9, id]

/-- `Code T r g k k' W e`: the words of `r`, whose groups are numbered from `g` and
whose counts are numbered from `k` up to `k'`.  A jump over the expression goes to
the word `e` of it. -/
inductive Code (T : Nat → Option (List Range)) : Regex → Nat → Nat → Nat → List Nat → Nat → Prop where
  | empty (g k) : Code T .empty g k k [] 0
  | atom {a q s g k k' w ws e} (ha : AtomCode T a w) (hs : Code T s g (k + quantCounts q) k' ws e) :
    Code T (.atom a q s) g k k' (quantCode q k w ++ ws) ((quantCode q k w).length + ws.length)
  | capture {b q s g k k1 k' wb eb ws e} (hb : Code T b (g + 1) k k1 wb eb)
    (hs : Code T s (g + 1 + b.groups) (k1 + quantCounts q) k' ws e) :
    Code T (.group true b q s) g k k' (quantCode q k1 (groupCode g wb) ++ ws)
      ((quantCode q k1 (groupCode g wb)).length + ws.length)
  | group {b q s g k k1 k' wb eb ws e} (hb : Code T b g k k1 wb eb)
    (hs : Code T s (g + b.groups) (k1 + quantCounts q) k' ws e) :
    Code T (.group false b q s) g k k' (quantCode q k1 (groupCode 0xFFFF wb) ++ ws)
      ((quantCode q k1 (groupCode 0xFFFF wb)).length + ws.length)
  | alt {l r g k k1 k' wl el wr er} (hl : Code T l g k k1 wl el) (hr : Code T r (g + l.groups) k1 k' wr er) :
    Code T (.alt l r) g k k' ([10, wl.length + 4] ++ wl ++ [11, 2 + er] ++ wr) (2 + wl.length)

/-- The multiplicities which can be written. -/
def QuantOk (q : Option Quant) : Prop :=
  ∀ p, q = some p → p.times.min ≤ p.times.limit ∧ 1 ≤ p.times.limit ∧ p.times.limit ≤ 65535

theorem quantOk_of_qok {q : Option Quant} (h : qok q) : QuantOk q := by
  rintro p rfl
  simp only [qok] at h
  cases ht : p.times <;> simp only [ht, Times.ok, Times.min, Times.limit, Times.max, numeral, Option.getD_none,
    Option.getD_some] at h ⊢ <;> omega

/-- All multiplicities of an expression can be written. -/
def QuantsOk : Regex → Prop
  | .empty => True
  | .atom _ q s => QuantOk q ∧ QuantsOk s
  | .group _ b q s => QuantsOk b ∧ QuantOk q ∧ QuantsOk s
  | .alt l r => QuantsOk l ∧ QuantsOk r

theorem quantsOk_of_ok : ∀ (r : Regex), r.ok → QuantsOk r
  | .empty, _ => trivial
  | .atom _ _ s, h => ⟨quantOk_of_qok h.2.1, quantsOk_of_ok s h.2.2.2⟩
  | .group _ b _ s, h => ⟨quantsOk_of_ok b h.1, quantOk_of_qok h.2.1, quantsOk_of_ok s h.2.2.2⟩
  | .alt l r, h => ⟨quantsOk_of_ok l h.2.1, quantsOk_of_ok r h.2.2⟩

theorem Code.mono {T T' : Nat → Option (List Range)} (hT : ∀ id rs, T id = some rs → T' id = some rs)
    {r g k k' W e} (h : Code T r g k k' W e) : Code T' r g k k' W e := by
  have hcls : ∀ id P, ClassIs T id P → ClassIs T' id P := by
    rintro id P ⟨rs, h1, h2⟩
    exact ⟨rs, hT _ _ h1, h2⟩
  induction h with
  | empty g k => exact .empty g k
  | @atom a q s g k k' w ws e ha hs ih =>
    refine .atom ?_ ih
    cases a <;> simp only [AtomCode] at ha ⊢ <;> first
      | exact ha
      | exact ha.imp fun id h => ⟨h.1, hcls _ _ h.2⟩
  | capture hb hs ihb ihs => exact .capture ihb ihs
  | group hb hs ihb ihs => exact .group ihb ihs
  | alt hl hr ihl ihr => exact .alt ihl ihr

theorem Code.counts_le {T : Nat → Option (List Range)} {r g k k' W e} (h : Code T r g k k' W e) : k ≤ k' := by
  induction h with
  | empty => exact Nat.le_refl _
  | atom ha hs ih => omega
  | capture hb hs ihb ihs => omega
  | group hb hs ihb ihs => omega
  | alt hl hr ihl ihr => omega

end Verif.Re
