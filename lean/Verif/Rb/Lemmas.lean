import Verif.Rb.Model

/-!
Trees in the heap, as pure trees and zippers.
-/
namespace Verif.Rb

/-- A tree with the addresses and colours of its nodes. -/
inductive T where
  | nil
  | node (l : T) (a : Nat) (c : Nat) (r : T)

/-- The path from a position up to the root. -/
inductive C where
  | top
  | left (k : C) (a : Nat) (c : Nat) (r : T)
  | right (l : T) (a : Nat) (c : Nat) (k : C)

namespace T

def ptr : T → Ptr
  | nil => none
  | node _ a _ _ => some a

@[simp] theorem ptr_nil : nil.ptr = none := rfl
@[simp] theorem ptr_node (l : T) (a c : Nat) (r : T) : (node l a c r).ptr = some a := rfl

def keys : T → List Nat
  | nil => []
  | node l a _ r => l.keys ++ a :: r.keys

end T

namespace C

def par : C → Ptr
  | top => none
  | left _ a _ _ => some a
  | right _ a _ _ => some a

@[simp] theorem par_top : top.par = none := rfl
@[simp] theorem par_left (k : C) (a c : Nat) (r : T) : (left k a c r).par = some a := rfl
@[simp] theorem par_right (l : T) (a c : Nat) (k : C) : (right l a c k).par = some a := rfl

/-- Keys before and after the position. -/
def pre : C → List Nat
  | top => []
  | left k _ _ _ => k.pre
  | right l a _ k => k.pre ++ (l.keys ++ [a])

def post : C → List Nat
  | top => []
  | left k a _ r => a :: r.keys ++ k.post
  | right _ _ _ k => k.post

def plug : C → T → T
  | top, t => t
  | left k a c r, t => k.plug (.node t a c r)
  | right l a c k, t => k.plug (.node l a c t)

theorem keys_plug (k : C) : ∀ t : T, (k.plug t).keys = k.pre ++ t.keys ++ k.post := by
  induction k with
  | top => intro t; simp [plug, pre, post]
  | left k a c r ih => intro t; simp [plug, pre, post, ih, T.keys]
  | right l a c k ih => intro t; simp [plug, pre, post, ih, T.keys]

end C

/-- The heap holds tree `t`, whose root has the given parent. -/
def Sub (h : Heap) : Ptr → T → Prop
  | _, .nil => True
  | p, .node l a c r => h a = some ⟨p, l.ptr, r.ptr, c⟩ ∧ Sub h (some a) l ∧ Sub h (some a) r

/-- The heap holds the path `k`, with `p` at its lower end. -/
def CSub (h : Heap) (root : Ptr) : C → Ptr → Prop
  | .top, p => root = p
  | .left k a c r, p => h a = some ⟨k.par, p, r.ptr, c⟩ ∧ Sub h (some a) r ∧ CSub h root k (some a)
  | .right l a c k, p => h a = some ⟨k.par, l.ptr, p, c⟩ ∧ Sub h (some a) l ∧ CSub h root k (some a)

/-- The heap holds the tree `k.plug t`. -/
structure Z (h : Heap) (root : Ptr) (k : C) (t : T) : Prop where
  sub : Sub h k.par t
  csub : CSub h root k t.ptr
  nodup : (k.pre ++ t.keys ++ k.post).Nodup

theorem Sub.frame {h h' : Heap} : ∀ {t : T} {p : Ptr}, Sub h p t → (∀ a ∈ t.keys, h' a = h a) → Sub h' p t := by
  intro t
  induction t with
  | nil => intros; trivial
  | node l a c r ihl ihr =>
    rintro p ⟨h1, h2, h3⟩ hf
    refine ⟨?_, ihl h2 fun b hb => hf b (by simp [T.keys, hb]), ihr h3 fun b hb => hf b (by simp [T.keys, hb])⟩
    rw [hf a (by simp [T.keys]), h1]

theorem CSub.frame {h h' : Heap} {root : Ptr} : ∀ {k : C} {p : Ptr}, CSub h root k p → (∀ a ∈ k.pre ++ k.post, h' a = h a) →
    CSub h' root k p := by
  intro k
  induction k with
  | top => intro p h1 _; exact h1
  | left k a c r ih =>
    rintro p ⟨h1, h2, h3⟩ hf
    refine ⟨?_, h2.frame fun b hb => hf b (by simp [C.pre, C.post, hb]), ih h3 fun b hb => hf b ?_⟩
    · rw [hf a (by simp [C.pre, C.post]), h1]
    · simp only [C.pre, C.post, List.mem_append, List.mem_cons] at hb ⊢; rcases hb with hb | hb <;> simp [hb]
  | right l a c k ih =>
    rintro p ⟨h1, h2, h3⟩ hf
    refine ⟨?_, h2.frame fun b hb => hf b (by simp [C.pre, C.post, hb]), ih h3 fun b hb => hf b ?_⟩
    · rw [hf a (by simp [C.pre, C.post]), h1]
    · simp only [C.pre, C.post, List.mem_append, List.mem_cons] at hb ⊢; rcases hb with hb | hb <;> simp [hb]

/-- The parent pointer of the root of a tree changes. -/
theorem Sub.reparent {h h' : Heap} {t : T} {p q : Ptr} (hs : Sub h p t) (hn : t.keys.Nodup)
    (hf : ∀ a ∈ t.keys, some a ≠ t.ptr → h' a = h a)
    (hr : ∀ a n, t.ptr = some a → h a = some n → h' a = some { n with parent := q }) : Sub h' q t := by
  cases t with
  | nil => trivial
  | node l a c r =>
    obtain ⟨h1, h2, h3⟩ := hs
    rw [T.keys, List.nodup_append] at hn
    obtain ⟨n1, n2, n3⟩ := hn
    rw [List.nodup_cons] at n2
    refine ⟨?_, h2.frame fun b hb => hf b (by simp [T.keys, hb]) ?_, h3.frame fun b hb => hf b (by simp [T.keys, hb]) ?_⟩
    · rw [hr a _ rfl h1]
    · simp only [T.ptr, ne_eq, Option.some.injEq]
      exact n3 b hb a (by simp)
    · simp only [T.ptr, ne_eq, Option.some.injEq]
      intro e; subst e; exact n2.1 hb

/-- The child pointer at the end of a path changes. -/
theorem CSub.rechild {h h' : Heap} {root : Ptr} {k : C} {p q : Ptr} (hk : CSub h root k p) (hn : (k.pre ++ k.post).Nodup)
    (ht : k ≠ .top)
    (hf : ∀ a ∈ k.pre ++ k.post, some a ≠ k.par → h' a = h a)
    (hl : ∀ k' a c r, k = .left k' a c r → h' a = some ⟨k'.par, q, r.ptr, c⟩)
    (hr : ∀ k' a c l, k = .right l a c k' → h' a = some ⟨k'.par, l.ptr, q, c⟩) : CSub h' root k q := by
  cases k with
  | top => exact absurd rfl ht
  | left k a c r =>
    obtain ⟨h1, h2, h3⟩ := hk
    refine ⟨hl _ _ _ _ rfl, h2.frame fun b hb => hf b (by simp [C.pre, C.post, hb]) ?_, h3.frame fun b hb => hf b ?_ ?_⟩
    all_goals simp only [C.par, ne_eq, Option.some.injEq, C.pre, C.post] at *
    all_goals grind
  | right l a c k =>
    obtain ⟨h1, h2, h3⟩ := hk
    refine ⟨hr _ _ _ _ rfl, h2.frame fun b hb => hf b (by simp [C.pre, C.post, hb]) ?_, h3.frame fun b hb => hf b ?_ ?_⟩
    all_goals simp only [C.par, ne_eq, Option.some.injEq, C.pre, C.post] at *
    all_goals grind

end Verif.Rb
