import Verif.Rb.Rot

namespace Verif.Rb

/-- Not a red root. -/
def T.black : T → Prop
  | .nil => True
  | .node _ _ c _ => c = 0

/-- Colours are 0 and 1, red nodes have black children, every path down has `n` black nodes. -/
def Bal : T → Nat → Prop
  | .nil, n => n = 0
  | .node l _ c r, n =>
    (c = 0 ∧ ∃ m, n = m + 1 ∧ Bal l m ∧ Bal r m) ∨ (c = 1 ∧ l.black ∧ r.black ∧ Bal l n ∧ Bal r n)

/-- The parent is red. -/
def C.parRed : C → Prop
  | .top => False
  | .left _ _ c _ => c ≠ 0
  | .right _ _ c _ => c ≠ 0

/-- The path is part of a balanced tree with a black root, if a tree with black height `n` is at its end. -/
def CBal : C → Nat → Prop
  | .top, _ => True
  | .left k _ c r, n => Bal r n ∧ ((c = 0 ∧ CBal k (n + 1)) ∨ (c = 1 ∧ r.black ∧ ¬ k.parRed ∧ k ≠ .top ∧ CBal k n))
  | .right l _ c k, n => Bal l n ∧ ((c = 0 ∧ CBal k (n + 1)) ∨ (c = 1 ∧ l.black ∧ ¬ k.parRed ∧ k ≠ .top ∧ CBal k n))

theorem Bal.plug : ∀ {k : C} {n : Nat} {t : T}, CBal k n → Bal t n → (k.parRed → t.black) → (k = .top → t.black) →
    ∃ m, Bal (k.plug t) m ∧ (k.plug t).black := by
  intro k
  induction k with
  | top => intro n t _ h _ ht; exact ⟨n, h, ht rfl⟩
  | left k a c r ih =>
    rintro n t ⟨h1, h2⟩ h3 h4 _
    rcases h2 with ⟨rfl, h2⟩ | ⟨rfl, h5, h6, h7, h2⟩
    · exact ih (t := .node t a 0 r) h2 (Or.inl ⟨rfl, n, rfl, h3, h1⟩) (fun _ => rfl) (fun _ => rfl)
    · exact ih (t := .node t a 1 r) h2 (Or.inr ⟨rfl, h4 (by simp [C.parRed]), h5, h3, h1⟩) (fun c => absurd c h6) (fun c => absurd c h7)
  | right l a c k ih =>
    rintro n t ⟨h1, h2⟩ h3 h4 _
    rcases h2 with ⟨rfl, h2⟩ | ⟨rfl, h5, h6, h7, h2⟩
    · exact ih (t := .node l a 0 t) h2 (Or.inl ⟨rfl, n, rfl, h1, h3⟩) (fun _ => rfl) (fun _ => rfl)
    · exact ih (t := .node l a 1 t) h2 (Or.inr ⟨rfl, h5, h4 (by simp [C.parRed]), h1, h3⟩) (fun c => absurd c h6) (fun c => absurd c h7)

/-- Conversely, a position in a balanced tree. -/
theorem Bal.unplug : ∀ {k : C} {m : Nat} {t : T}, Bal (k.plug t) m → (k.plug t).black →
    ∃ n, CBal k n ∧ Bal t n ∧ (k.parRed → t.black) ∧ (k = .top → t.black) := by
  intro k
  induction k with
  | top => intro m t h hb; exact ⟨m, trivial, h, fun c => c.elim, fun _ => hb⟩
  | left k a c r ih =>
    intro m t h hb
    obtain ⟨n, h1, h2, h3, h4⟩ := ih h hb
    rcases h2 with ⟨rfl, q, rfl, h5, h6⟩ | ⟨rfl, h5, h6, h7, h8⟩
    · exact ⟨q, ⟨h6, Or.inl ⟨rfl, h1⟩⟩, h5, fun c => absurd rfl c, fun c => C.noConfusion c⟩
    · refine ⟨n, ⟨h8, Or.inr ⟨rfl, h6, fun c => ?_, fun c => ?_, h1⟩⟩, h7, fun _ => h5, fun c => C.noConfusion c⟩
      · exact absurd (h3 c) (by simp [T.black])
      · exact absurd (h4 c) (by simp [T.black])
  | right l a c k ih =>
    intro m t h hb
    obtain ⟨n, h1, h2, h3, h4⟩ := ih h hb
    rcases h2 with ⟨rfl, q, rfl, h5, h6⟩ | ⟨rfl, h5, h6, h7, h8⟩
    · exact ⟨q, ⟨h5, Or.inl ⟨rfl, h1⟩⟩, h6, fun c => absurd rfl c, fun c => C.noConfusion c⟩
    · refine ⟨n, ⟨h7, Or.inr ⟨rfl, h5, fun c => ?_, fun c => ?_, h1⟩⟩, h8, fun _ => h6, fun c => C.noConfusion c⟩
      · exact absurd (h3 c) (by simp [T.black])
      · exact absurd (h4 c) (by simp [T.black])

/-! ## Moving the focus and changing colours -/

theorem Z.upL {h : Heap} {root : Ptr} {k : C} {a c : Nat} {t r : T} : Z h root (.left k a c r) t ↔ Z h root k (.node t a c r) := by
  constructor
  · rintro ⟨h1, ⟨h2, h3, h4⟩, h5⟩
    exact ⟨⟨h2, h1, h3⟩, h4, by simpa [C.pre, C.post, T.keys] using h5⟩
  · rintro ⟨⟨h2, h1, h3⟩, h4, h5⟩
    exact ⟨h1, ⟨h2, h3, h4⟩, by simpa [C.pre, C.post, T.keys] using h5⟩

theorem Z.upR {h : Heap} {root : Ptr} {k : C} {a c : Nat} {t l : T} : Z h root (.right l a c k) t ↔ Z h root k (.node l a c t) := by
  constructor
  · rintro ⟨h1, ⟨h2, h3, h4⟩, h5⟩
    exact ⟨⟨h2, h3, h1⟩, h4, by simpa [C.pre, C.post, T.keys] using h5⟩
  · rintro ⟨⟨h2, h3, h1⟩, h4, h5⟩
    exact ⟨h1, ⟨h2, h3, h4⟩, by simpa [C.pre, C.post, T.keys] using h5⟩

theorem Z.deref {h : Heap} {root : Ptr} {k : C} {l r : T} {a c : Nat} (z : Z h root k (.node l a c r)) :
    Rb.deref h (some a) = some ⟨k.par, l.ptr, r.ptr, c⟩ := z.sub.1

theorem Z.isRed {h : Heap} {root : Ptr} {k : C} {t : T} (z : Z h root k t) : ∃ b, Rb.isRed h t.ptr = some b ∧ (b = false ↔ t.black) := by
  cases t with
  | nil => exact ⟨false, rfl, by simp [T.black]⟩
  | node l a c r =>
    refine ⟨c != 0, ?_, by simp [T.black]⟩
    simp only [T.ptr_node, Rb.isRed, z.sub.1]

theorem Z.setRed {h : Heap} {root : Ptr} {k : C} {l r : T} {a c : Nat} (z : Z h root k (.node l a c r)) (c' : Nat) :
    ∃ h', Rb.setRed h (some a) c' = some h' ∧ Z h' root k (.node l a c' r) ∧ ∀ b, b ≠ a → h' b = h b := by
  obtain ⟨⟨h1, h2, h3⟩, h4, h5⟩ := z
  refine ⟨_, by simp only [Rb.setRed, modify, h1]; rfl, ⟨⟨by simp, h2.frame ?_, h3.frame ?_⟩, h4.frame ?_, h5⟩, ?_⟩
  · intro b hb
    rw [if_neg]
    rintro rfl
    simp only [T.keys, List.nodup_append, List.nodup_cons, List.mem_append, List.mem_cons] at h5
    grind
  · intro b hb
    rw [if_neg]
    rintro rfl
    simp only [T.keys, List.nodup_append, List.nodup_cons, List.mem_append, List.mem_cons] at h5
    grind
  · intro b hb
    rw [if_neg]
    rintro rfl
    simp only [T.keys, List.nodup_append, List.nodup_cons, List.mem_append, List.mem_cons] at h5 hb
    grind
  · intro b hb; simp [hb]

/-- The root pointer is at the position exactly if there is nothing above. -/
theorem Z.root_iff {h : Heap} {root : Ptr} {k : C} {l r : T} {a c : Nat} (z : Z h root k (.node l a c r)) : some a = root ↔ k = .top := by
  have hn := z.nodup
  have hk := z.csub
  have key : ∀ (k : C) (p : Ptr), CSub h root k p → k ≠ .top → ∃ b ∈ k.pre ++ k.post, root = some b := by
    intro k
    induction k with
    | top => intro p _ c; exact absurd rfl c
    | left k b c r ih =>
      rintro p ⟨h1, h2, h3⟩ _
      by_cases hk : k = .top
      · subst hk; exact ⟨b, by simp [C.pre, C.post], h3⟩
      · obtain ⟨x, hx, e⟩ := ih _ h3 hk
        refine ⟨x, ?_, e⟩
        simp only [C.pre, C.post, List.mem_append, List.mem_cons] at hx ⊢; grind
    | right l b c k ih =>
      rintro p ⟨h1, h2, h3⟩ _
      by_cases hk : k = .top
      · subst hk; exact ⟨b, by simp [C.pre, C.post], h3⟩
      · obtain ⟨x, hx, e⟩ := ih _ h3 hk
        refine ⟨x, ?_, e⟩
        simp only [C.pre, C.post, List.mem_append, List.mem_cons] at hx ⊢; grind
  constructor
  · intro e
    by_cases hk0 : k = .top
    · exact hk0
    · obtain ⟨b, hb, e'⟩ := key _ _ hk hk0
      rw [← e, Option.some.injEq] at e'
      subst e'
      simp only [T.keys, List.nodup_append, List.nodup_cons, List.mem_append, List.mem_cons] at hn hb
      grind
  · rintro rfl; exact hk.symm

/-- Different parts of a tree have different addresses. -/
theorem ptr_ne {u : T} {a : Nat} (h : a ∉ u.keys) : some a ≠ u.ptr := fun e => h (ptr_mem e.symm)

end Verif.Rb
