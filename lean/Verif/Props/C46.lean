import Verif.Utils.CompareLemmas

/-!
C46: the comparison operators form a total preorder.

The order of values is `TLt`: numbers, void, booleans, strings, arrays, buffers, in this order; integers by value, strings and
buffers lexicographically by code point or byte, arrays lexicographically.
-/
namespace Verif.Props

open Verif.Utils

/-- What users rely on, for three values: exactly one of `a < b`, `a == b` and `a > b` holds, the other operators agree with them, and
`<=` is transitive. -/
structure Lawful (m : Mem) (fuel : Nat) (a b c : Int) : Prop where
  refl : vmEq m fuel a a = some true
  trichotomy : (vmLt m fuel a b = some true ∧ vmEq m fuel a b = some false ∧ vmGt m fuel a b = some false) ∨
    (vmLt m fuel a b = some false ∧ vmEq m fuel a b = some true ∧ vmGt m fuel a b = some false) ∨
    (vmLt m fuel a b = some false ∧ vmEq m fuel a b = some false ∧ vmGt m fuel a b = some true)
  le : vmLe m fuel a b = some true ↔ vmLt m fuel a b = some true ∨ vmEq m fuel a b = some true
  ge : vmGe m fuel a b = some true ↔ vmGt m fuel a b = some true ∨ vmEq m fuel a b = some true
  ne : vmNe m fuel a b = some true ↔ vmEq m fuel a b = some false
  symm : vmEq m fuel a b = vmEq m fuel b a
  trans : vmLe m fuel a b = some true → vmLe m fuel b c = some true → vmLe m fuel a c = some true

/-- The full claim: for all finite values without floating-point numbers. -/
def C46_full : Prop :=
  ∀ (m : Mem), WF m → ∀ (a b c : Int) (s t u : Tree), Den m a s → Den m b t → Den m c u →
    ∀ fuel, s.depth ≤ fuel → t.depth ≤ fuel → u.depth ≤ fuel → Lawful m fuel a b c

theorem Res.lt_iff {c : Cmp} {t u : Tree} (h : Res c t u) : (c = .less ↔ TLt t u) ∧ (c = .equal ↔ t = u) ∧ (c = .greater ↔ TLt u t) := by
  have asym : ∀ t u, TLt t u → ¬ TLt u t := fun t u h1 h2 => TLt.irrefl t (TLt.trans t u t h1 h2)
  rcases h with ⟨rfl, h⟩ | ⟨rfl, rfl⟩ | ⟨rfl, h⟩
  · have : t ≠ u := by rintro rfl; exact TLt.irrefl _ h
    simp [h, this, asym t u h]
  · simp [TLt.irrefl t]
  · have : t ≠ u := by rintro rfl; exact TLt.irrefl _ h
    simp [h, this, asym u t h]

/-- The comparison tells the order of values, if no array is at different depths in both.  The comparison never reads outside of objects
and does not fail. -/
theorem C46_order_partial (m : Mem) (hv : OneVoid m) (hc : ByCode m.coll) (a b : Int) (t u : Tree) (ha : Den m a t) (hb : Den m b u)
    (hn : NoCross m a b) (fuel : Nat) (hf : t.depth ≤ fuel) :
    ∃ c, kosCompare m fuel a b = some c ∧ (c = .less ↔ TLt t u) ∧ (c = .equal ↔ t = u) ∧ (c = .greater ↔ TLt u t) := by
  obtain ⟨c, e1, e2⟩ := compare_tree hv hc t u a b fuel [] hf ha hb (fun r hr => absurd hr (by simp)) (fun _ => hn)
  exact ⟨c, e1, Res.lt_iff e2⟩

theorem noCross_symm {m : Mem} {a b : Int} (h : NoCross m a b) : NoCross m b a := fun i j x hi hj hx => (h j i x hj hi hx).symm

/-- The operators are a total preorder on values without arrays at different depths. -/
theorem C46_partial (m : Mem) (hm : WF m) (a b c : Int) (s t u : Tree) (ha : Den m a s) (hb : Den m b t) (hc : Den m c u) (fuel : Nat)
    (f1 : s.depth ≤ fuel) (f2 : t.depth ≤ fuel) (n1 : NoCross m a b) (n2 : NoCross m b c) (n3 : NoCross m a c) : Lawful m fuel a b c := by
  obtain ⟨x, x1, x2, x3, x4⟩ := C46_order_partial m hm.void hm.coll a b s t ha hb n1 fuel f1
  obtain ⟨w, w1, w2, w3, w4⟩ := C46_order_partial m hm.void hm.coll b a t s hb ha (noCross_symm n1) fuel f2
  obtain ⟨y, y1, y2, y3, y4⟩ := C46_order_partial m hm.void hm.coll b c t u hb hc n2 fuel f2
  obtain ⟨z, z1, z2, z3, z4⟩ := C46_order_partial m hm.void hm.coll a c s u ha hc n3 fuel f1
  obtain ⟨r, r1, r2⟩ : ∃ r, kosCompare m fuel a a = some r ∧ r = .equal := ⟨_, compare_refl ha fuel [], rfl⟩
  have hw : w = x.flip := by
    have := compare_flip hm fuel [] a b
    rw [List.map_nil] at this
    unfold kosCompare at x1 w1
    rw [x1, w1] at this
    exact Option.some.inj this
  subst hw
  subst r2
  have hx : x ≠ .indeterminate := by
    rintro rfl
    obtain ⟨c, e1, e2⟩ := compare_tree hm.void hm.coll s t a b fuel [] f1 ha hb (fun r hr => absurd hr (by simp)) (fun _ => n1)
    unfold kosCompare at x1
    rw [x1, Option.some.injEq] at e1
    subst e1
    rcases e2 with ⟨h, _⟩ | ⟨h, _⟩ | ⟨h, _⟩ <;> exact absurd h (by simp)
  refine ⟨?_, ?_, ?_, ?_, ?_, ?_, ?_⟩
  · unfold vmEq; rw [r1]; rfl
  · unfold vmLt vmEq vmGt vmLt; rw [x1, w1]
    cases x <;> simp_all [Cmp.flip]
  · unfold vmLe vmLt vmEq; rw [x1]
    cases x <;> simp
  · unfold vmGe vmLe vmGt vmLt vmEq; rw [x1, w1]
    cases x <;> simp [Cmp.flip]
  · unfold vmNe vmEq; rw [x1]
    cases x <;> simp
  · unfold vmEq; rw [x1, w1]
    cases x <;> rfl
  · unfold vmLe
    rw [x1, y1, z1]
    simp only [Option.map_some, Option.some.injEq, Bool.or_eq_true, beq_iff_eq, x2, x3, y2, y3, z2, z3]
    rintro (rfl | h1) (rfl | h2)
    · exact Or.inl rfl
    · exact Or.inr h2
    · exact Or.inr h1
    · exact Or.inr (TLt.trans _ _ _ h1 h2)

/-- The order of values itself is strict, total and transitive. -/
theorem C46_values (s t u : Tree) : ¬ TLt s s ∧ (TLt s t → TLt t u → TLt s u) ∧ (TLt s t ∨ s = t ∨ TLt t s) :=
  ⟨TLt.irrefl s, TLt.trans s t u, TLt.total s t⟩

/-- For all values, including floating-point numbers and arrays inside of themselves: swapping operands swaps the result. -/
theorem C46_antisymmetric (m : Mem) (hm : WF m) (fuel : Nat) (a b : Int) : kosCompare m fuel b a = (kosCompare m fuel a b).map Cmp.flip :=
  compare_flip hm fuel [] a b

/-- The comparison ends for all values, also for arrays inside of themselves: recursion is not deeper than the number of arrays plus
one, and no assertion fails. -/
theorem C46_ends (m : Mem) (hm : WF m) (live : List Int) (hl : ∀ a es, a % 2 ≠ 0 → m.heap a = .arr es → a ∈ live) (a b : Int) :
    ∃ c, kosCompare m (live.length + 1) a b = some c := by
  have := compare_ends hm live hl (live.length + 1) [] (by simp) (by simp) (by simp) a b
  unfold kosCompare
  cases e : compare m (live.length + 1) [] a b with
  | none => exact absurd e this
  | some c => exact ⟨c, rfl⟩

/-! ### Violations -/

/-- Double precision numbers with integer values: `none` is NaN.  Conversion of an integer rounds to 53 bits, ties to even. -/
def roundInt (n : Int) : Int :=
  let a := n.natAbs
  let k := if a < 2 ^ 53 then 0 else Nat.log2 a - 52
  let q := a / 2 ^ k
  let r := a % 2 ^ k
  let q := if 2 * r > 2 ^ k ∨ (2 * r = 2 ^ k ∧ q % 2 = 1) then q + 1 else q
  n.sign * (q * 2 ^ k)

def dbl : Floats := ⟨Option Int, fun n => some (roundInt n), fun f => f.isNone, fun x y =>
  match x, y with
  | some x, some y => decide (x < y)
  | _, _ => false⟩

/-- `x = []` at 5, `b = [x]` at 3, `c = [b]` at 7; and a copy `[[[]]]` at 13. -/
def exHeap : Mem := ⟨dbl, fun x y => (x : Int) - y, fun a =>
  if a = 5 then .arr []
  else if a = 3 then .arr [5]
  else if a = 7 then .arr [3]
  else if a = 9 then .arr []
  else if a = 11 then .arr [9]
  else if a = 13 then .arr [11]
  else .other 12⟩

theorem exHeap_wf : WF exHeap := by
  have cases : ∀ a, (∃ es, exHeap.heap a = .arr es) ∨ exHeap.heap a = .other 12 := by
    intro a
    show (∃ es, (if a = 5 then _ else _ : Obj _) = _) ∨ (if a = 5 then _ else _ : Obj _) = _
    repeat' split
    all_goals first | exact Or.inl ⟨_, rfl⟩ | exact Or.inr rfl
  refine ⟨?_, byCode_sub, ?_, ?_, ?_⟩
  · intro a b h _
    rcases cases a with ⟨es, e⟩ | e <;> rw [e] at h <;> exact absurd h (by simp)
  · intro a s h
    rcases cases a with ⟨es, e⟩ | e <;> rw [e] at h <;> exact absurd h (by simp)
  · intro a ty h
    rcases cases a with ⟨es, e⟩ | e <;> rw [e] at h <;> simp at h
    exact Or.inl h.symm
  · intro x y
    show (match x, y with | some x, some y => decide (x < y) | _, _ => false) = true → _
    cases x <;> cases y <;> simp
    intro h
    show decide _ = false
    simp; omega

/-- The check for recursive arrays (core/kos_utils.c:1488-1500) also fires when an element of one array is the other array: then
addresses are compared.  `c = [b]` is less than `b = [x]` if `b` is at a lower address than `x`, but `c == [[[]]]` and `b < [[[]]]`. -/
theorem C46_crossing_violated :
    vmLt exHeap 4 7 3 = some true ∧ vmLt exHeap 4 3 13 = some true ∧ vmEq exHeap 4 13 7 = some true := by
  decide +kernel

theorem C46_violated : ¬ C46_full := by
  intro h
  have d : ∀ a, Den exHeap a (.arr []) ↔ a % 2 ≠ 0 ∧ exHeap.heap a = .arr [] := by
    intro a
    simp only [Den]
    constructor
    · rintro ⟨h1, es, h2, h3⟩
      cases es with
      | nil => exact ⟨h1, h2⟩
      | cons => simp [DenL] at h3
    · rintro ⟨h1, h2⟩
      exact ⟨h1, [], h2, by simp [DenL]⟩
  have d5 := (d 5).mpr ⟨by decide, rfl⟩
  have d9 := (d 9).mpr ⟨by decide, rfl⟩
  have one : ∀ a e t, a % 2 ≠ 0 → exHeap.heap a = .arr [e] → Den exHeap e t → Den exHeap a (.arr [t]) := by
    intro a e t h1 h2 h3
    simp only [Den]
    exact ⟨h1, [e], h2, by simp [DenL, h3]⟩
  have d3 := one 3 5 _ (by decide) rfl d5
  have d7 := one 7 3 _ (by decide) rfl d3
  have d11 := one 11 9 _ (by decide) rfl d9
  have d13 := one 13 11 _ (by decide) rfl d11
  have l := h exHeap exHeap_wf 13 7 3 _ _ _ d13 d7 d3 4 (by decide) (by decide) (by decide)
  have := l.trans (by decide +kernel) (by decide +kernel)
  exact absurd this (by decide +kernel)

/-- Integers and floating-point numbers together: `==` is not transitive, because integers are converted to double precision. -/
theorem C46_mixed_violated :
    ∃ m : Mem, m.fl = dbl ∧ vmEq m 0 18014398509481986 1 = some true ∧ vmEq m 0 1 18014398509481984 = some true ∧
      vmEq m 0 18014398509481986 18014398509481984 = some false := by
  refine ⟨⟨dbl, fun x y => (x : Int) - y, fun _ => .float (some 9007199254740992 : Option Int)⟩, rfl, ?_, ?_, ?_⟩ <;> decide +kernel

/-- `[1, "b"] < [1, "b", true]`, an integer object against a small integer, and an array which contains itself. -/
def exHeap2 : Mem := ⟨dbl, fun x y => (x : Int) - y, fun a =>
  if a = 1 then .str ⟨.w8, true, .inObj, 1, 0, 0, [98]⟩
  else if a = 3 then .bool true
  else if a = 5 then .arr [2, 1]
  else if a = 7 then .arr [2, 1, 3]
  else if a = 9 then .arr [9]
  else if a = 11 then .integer 1
  else if a = 13 then .arr [11, 1, 3]
  else .void⟩

example : vmLt exHeap2 2 5 7 = some true ∧ vmEq exHeap2 2 13 7 = some true ∧ vmGe exHeap2 2 1 2 = some true ∧ vmEq exHeap2 2 11 2 = some true ∧
    vmEq exHeap2 2 9 5 = some false ∧ vmEq exHeap2 2 9 9 = some true ∧ vmLe exHeap2 2 7 5 = some false := by
  decide +kernel

end Verif.Props
