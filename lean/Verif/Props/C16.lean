import Verif.Props.C15

/-!
C16: the red-black tree stays balanced.

Balance is stated for paths of pointers in the heap, starting at the root.
-/
namespace Verif.Props

open Verif.Rb (Heap Ptr Node)

variable {K : Type}

/-- Follow pointers (`true` is left): the last pointer, and how many black nodes have been left behind. -/
def rbPath (h : Heap) : Ptr → List Bool → Option (Ptr × Nat)
  | p, [] => some (p, 0)
  | none, _ :: _ => none
  | some a, d :: ds =>
    match h a with
    | none => none
    | some n => (rbPath h (if d then n.left else n.right) ds).map fun r => (r.1, r.2 + if n.red = 0 then 1 else 0)

theorem rbPath_sub {h : Heap} : ∀ (ds : List Bool) {t : Rb.T} {m : Nat} {p q : Ptr} {n : Nat}, Rb.Sub h p t → Rb.Bal t m → rbPath h t.ptr ds = some (q, n) →
    ∃ t' m' p', Rb.Sub h p' t' ∧ Rb.Bal t' m' ∧ q = t'.ptr ∧ m = m' + n ∧ ds.length + t'.height ≤ t.height := by
  intro ds
  induction ds with
  | nil => intro t m p q n hs hb he; cases he; exact ⟨t, m, p, hs, hb, rfl, rfl, by simp⟩
  | cons d ds ih =>
    intro t m p q n hs hb he
    cases t with
    | nil => cases he
    | node l a c r =>
      obtain ⟨h1, h2, h3⟩ := hs
      simp only [Rb.T.ptr_node, rbPath, h1, Option.map_eq_some_iff] at he
      obtain ⟨⟨q', n'⟩, he, e⟩ := he
      rw [Prod.mk.injEq] at e
      obtain ⟨rfl, rfl⟩ := e
      simp only [Rb.T.height, List.length_cons]
      cases d
      · simp only [Bool.false_eq_true, if_false] at he
        rcases hb with ⟨rfl, m, rfl, b1, b2⟩ | ⟨rfl, _, _, b1, b2⟩
        · obtain ⟨t', m', p', i1, i2, i3, i4, i5⟩ := ih h3 b2 he
          exact ⟨t', m', p', i1, i2, i3, by simp; omega, by omega⟩
        · obtain ⟨t', m', p', i1, i2, i3, i4, i5⟩ := ih h3 b2 he
          exact ⟨t', m', p', i1, i2, i3, by simp; omega, by omega⟩
      · simp only [if_true] at he
        rcases hb with ⟨rfl, m, rfl, b1, b2⟩ | ⟨rfl, _, _, b1, b2⟩
        · obtain ⟨t', m', p', i1, i2, i3, i4, i5⟩ := ih h2 b1 he
          exact ⟨t', m', p', i1, i2, i3, by simp; omega, by omega⟩
        · obtain ⟨t', m', p', i1, i2, i3, i4, i5⟩ := ih h2 b1 he
          exact ⟨t', m', p', i1, i2, i3, by simp; omega, by omega⟩

/-- C16.  After any legal history: the root is black; a node which can be reached is black or red, a red one has no red child, and
children point back to it; all paths down to a null pointer pass the same number of black nodes; no path is longer than
`2 * log2 (n + 1)` where `n` is the number of items; a search makes no more comparisons than that. -/
theorem C16_balance {cmp : K → K → Int} (hc : RbSpec.Order cmp) (h : Heap) (key : Nat → K) (ops : List (RbOp K)) (hl : RbSpec.Legal cmp [] ops)
    (fuel : Nat) (hf : 2 * Nat.log2 (ops.length + 1) + 5 ≤ fuel) :
    let n := (RbSpec.run cmp [] ops).length
    ∃ s, rbRun cmp fuel ⟨h, none, key⟩ ops = some s ∧
      (∀ a, s.root = some a → ∃ x, s.h a = some x ∧ x.red = 0 ∧ x.parent = none) ∧
      (∀ ds a b, rbPath s.h s.root ds = some (some a, b) → ∃ x, s.h a = some x ∧ (x.red = 0 ∨ x.red = 1) ∧
        ∀ c, x.left = some c ∨ x.right = some c → ∃ y, s.h c = some y ∧ y.parent = some a ∧ (x.red = 1 → y.red = 0)) ∧
      (∀ d1 d2 b1 b2, rbPath s.h s.root d1 = some (none, b1) → rbPath s.h s.root d2 = some (none, b2) → b1 = b2) ∧
      (∀ ds r, rbPath s.h s.root ds = some r → ds.length ≤ 2 * Nat.log2 (n + 1)) ∧
      (∀ f : K → Int, RbSpec.Item cmp f → Rb.find (fun a => f (s.key a)) s.h (2 * Nat.log2 (n + 1) + 1) s.root ≠ none) := by
  obtain ⟨s, t, m, e, i⟩ := RbInv.run hc ops ⟨h, none, key⟩ [] .nil 0 (.init cmp h key) hl (fuel := fuel) (by simpa using hf)
  have hr : s.root = t.ptr := i.z.csub
  have hh := i.height
  have hsub := i.z.sub
  refine ⟨s, e, ?_, ?_, ?_, ?_, ?_⟩
  · intro a ha
    rw [hr] at ha
    cases t with
    | nil => cases ha
    | node l a' c r =>
      cases ha
      exact ⟨_, hsub.1, i.black, rfl⟩
  · intro ds a b hp
    rw [hr] at hp
    obtain ⟨t', m', p', i1, i2, i3, i4, i5⟩ := rbPath_sub ds hsub i.bal hp
    cases t' with
    | nil => cases i3
    | node l a' c r =>
      cases i3
      obtain ⟨j1, j2, j3⟩ := i1
      refine ⟨_, j1, ?_, ?_⟩
      · rcases i2 with ⟨rfl, _⟩ | ⟨rfl, _⟩
        · exact Or.inl rfl
        · exact Or.inr rfl
      · intro c' hc'
        rcases hc' with hc' | hc'
        · cases l with
          | nil => cases hc'
          | node _ _ _ _ =>
            cases hc'
            refine ⟨_, j2.1, rfl, fun hred => ?_⟩
            rcases i2 with ⟨rfl, _⟩ | ⟨rfl, b1, _⟩
            · exact absurd hred (by simp)
            · exact b1
        · cases r with
          | nil => cases hc'
          | node _ _ _ _ =>
            cases hc'
            refine ⟨_, j3.1, rfl, fun hred => ?_⟩
            rcases i2 with ⟨rfl, _⟩ | ⟨rfl, _, b1, _⟩
            · exact absurd hred (by simp)
            · exact b1
  · intro d1 d2 b1 b2 h1 h2
    rw [hr] at h1 h2
    obtain ⟨t1, m1, _, _, i2, i3, i4, _⟩ := rbPath_sub d1 hsub i.bal h1
    obtain ⟨t2, m2, _, _, j2, j3, j4, _⟩ := rbPath_sub d2 hsub i.bal h2
    cases t1 with
    | node _ _ _ _ => cases i3
    | nil =>
    cases t2 with
    | node _ _ _ _ => cases j3
    | nil =>
      obtain rfl : m1 = 0 := i2
      obtain rfl : m2 = 0 := j2
      omega
  · intro ds r hp
    rw [hr] at hp
    obtain ⟨t', _, _, _, _, _, _, i5⟩ := rbPath_sub ds hsub i.bal (q := r.1) (n := r.2) hp
    omega
  · intro f hi
    obtain ⟨q, e1, _⟩ := Rb.find_spec (cmp := fun a => f (s.key a)) (2 * Nat.log2 ((RbSpec.run cmp [] ops).length + 1) + 1) hsub (by omega) (by
      rw [i.keys, List.pairwise_map]
      refine i.sorted.imp_of_mem ?_
      intro p q hp hq h
      rw [i.key p hp, i.key q hq]
      exact hi _ _ h)
    rw [hr, e1]
    simp

/-- In the example of C15 some path has length 3, the bound for 5 items is 4. -/
example : (rbRun (fun a b => a - b) 20 ⟨fun _ => none, none, fun _ => 0⟩ rbExOps).bind (fun s => rbPath s.h s.root [true, false, true]) = some (none, 2) := by
  decide +kernel

end Verif.Props
