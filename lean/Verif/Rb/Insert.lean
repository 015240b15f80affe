import Verif.Rb.Bal

namespace Verif.Rb

/-- Heaps agree outside of a list of addresses. -/
def Same (h h' : Heap) (l : List Nat) : Prop := ∀ a, a ∉ l → h' a = h a

theorem Same.refl (h : Heap) (l : List Nat) : Same h h l := fun _ _ => rfl

theorem Same.trans {h h' h'' : Heap} {l : List Nat} (h1 : Same h h' l) (h2 : Same h' h'' l) : Same h h'' l :=
  fun a ha => (h2 a ha).trans (h1 a ha)

theorem recolorL {h : Heap} {root new : Ptr} {k : C} {p g pc gc ua uc : Nat} {pl pr ul ur : T}
    (z : Z h root (.left k g gc (.node ul ua uc ur)) (.node pl p pc pr)) (hu : uc ≠ 0) :
    ∃ h', insertStep h root new (some p) (some g) = some (h', root, some g) ∧
      Z h' root k (.node (.node pl p 0 pr) g 1 (.node ul ua 0 ur)) ∧ Same h h' (k.plug (.node (.node pl p 0 pr) g 1 (.node ul ua 0 ur))).keys := by
  obtain ⟨h1, e1, z1, f1⟩ := z.setRed 0
  have zu := Z.upR.mpr (Z.upL.mp z1)
  obtain ⟨h2, e2, z2, f2⟩ := zu.setRed 0
  obtain ⟨h3, e3, z3, f3⟩ := (Z.upR.mp z2).setRed 1
  refine ⟨h3, ?_, z3, ?_⟩
  · have d := (Z.upL.mp z).deref
    obtain ⟨b, eb, hb⟩ := (Z.upR.mpr (Z.upL.mp z)).isRed
    have : b = true := by
      cases b with
      | true => rfl
      | false => exact absurd (hb.mp rfl) (by simpa [T.black] using hu)
    subst this
    simp only [T.ptr_node] at d eb
    simp [insertStep, d, eb, e1, e2, e3]
  · intro a ha
    simp only [C.keys_plug, T.keys, List.mem_append, List.mem_cons, not_or] at ha
    rw [f3 a (by grind), f2 a (by grind), f1 a (by grind)]

theorem recolorR {h : Heap} {root new : Ptr} {k : C} {p g pc gc ua uc : Nat} {pl pr ul ur : T}
    (z : Z h root (.right (.node ul ua uc ur) g gc k) (.node pl p pc pr)) (hu : uc ≠ 0) :
    ∃ h', insertStep h root new (some p) (some g) = some (h', root, some g) ∧
      Z h' root k (.node (.node ul ua 0 ur) g 1 (.node pl p 0 pr)) ∧ Same h h' (k.plug (.node (.node ul ua 0 ur) g 1 (.node pl p 0 pr))).keys := by
  have zu := Z.upL.mpr (Z.upR.mp z)
  obtain ⟨h1, e1, z1, f1⟩ := zu.setRed 0
  obtain ⟨h2, e2, z2, f2⟩ := (Z.upR.mpr (Z.upL.mp z1)).setRed 0
  obtain ⟨h3, e3, z3, f3⟩ := (Z.upR.mp z2).setRed 1
  refine ⟨h3, ?_, z3, ?_⟩
  · have d := (Z.upR.mp z).deref
    obtain ⟨b, eb, hb⟩ := zu.isRed
    have : b = true := by
      cases b with
      | true => rfl
      | false => exact absurd (hb.mp rfl) (by simpa [T.black] using hu)
    subst this
    have hne : p ≠ ua := by
      rintro rfl
      have hn := z.nodup
      simp only [C.pre, C.post, T.keys, List.nodup_append, List.nodup_cons, List.mem_append, List.mem_cons] at hn
      grind
    simp only [T.ptr_node] at d eb
    simp [insertStep, d, eb, e1, e2, e3, hne]
  · intro a ha
    simp only [C.keys_plug, T.keys, List.mem_append, List.mem_cons, not_or] at ha
    rw [f3 a (by grind), f2 a (by grind), f1 a (by grind)]

/-- The uncle is black, the new node is the left child of a left child. -/
theorem rotLL {h : Heap} {root : Ptr} {k : C} {p g pc gc a c : Nat} {l r s u : T}
    (z : Z h root (.left k g gc u) (.node (.node l a c r) p pc s)) (hu : u.black) :
    ∃ h' root', insertStep h root (some a) (some p) (some g) = some (h', root', some a) ∧
      Z h' root' k (.node (.node l a c r) p 0 (.node s g 1 u)) ∧ Same h h' (k.plug (.node (.node l a c r) p 0 (.node s g 1 u))).keys := by
  obtain ⟨h1, e1, z1, f1⟩ := z.setRed 0
  obtain ⟨h2, e2, z2, f2⟩ := (Z.upL.mp z1).setRed 1
  obtain ⟨h3, root', e3, z3, f3⟩ := rightRotate_spec z2
  refine ⟨h3, root', ?_, z3, ?_⟩
  · have d := (Z.upL.mp z).deref
    have dp := z.deref
    have da := (Z.upL.mpr z).deref
    have dp' := z1.deref
    obtain ⟨b, eb, hb⟩ := (Z.upR.mpr (Z.upL.mp z)).isRed
    have := hb.mpr hu
    subst this
    have hne : some a ≠ s.ptr := ptr_ne (by
      have hn := z.nodup
      simp only [C.pre, C.post, T.keys, List.nodup_append, List.nodup_cons, List.mem_append, List.mem_cons] at hn
      grind)
    simp only [T.ptr_node, C.par_left] at d eb dp da dp'
    simp [insertStep, d, eb, dp, dp', da, hne, e1, e2, e3]
  · intro x hx
    have := f3 x (by simpa [C.keys_plug, T.keys] using hx)
    simp only [C.keys_plug, T.keys, List.mem_append, List.mem_cons, not_or] at hx
    rw [this, f2 x (by grind), f1 x (by grind)]

/-- The uncle is black, the new node is the right child of a left child. -/
theorem rotLR {h : Heap} {root : Ptr} {k : C} {p g pc gc a c : Nat} {l r s u : T}
    (z : Z h root (.left k g gc u) (.node s p pc (.node l a c r))) (hu : u.black) :
    ∃ h' root', insertStep h root (some a) (some p) (some g) = some (h', root', some p) ∧
      Z h' root' k (.node (.node s p pc l) a 0 (.node r g 1 u)) ∧ Same h h' (k.plug (.node (.node s p pc l) a 0 (.node r g 1 u))).keys := by
  obtain ⟨h0, root0, e0, z0, f0⟩ := leftRotate_spec z
  obtain ⟨h1, e1, z1, f1⟩ := z0.setRed 0
  obtain ⟨h2, e2, z2, f2⟩ := (Z.upL.mp z1).setRed 1
  obtain ⟨h3, root', e3, z3, f3⟩ := rightRotate_spec z2
  refine ⟨h3, root', ?_, z3, ?_⟩
  · have d := (Z.upL.mp z).deref
    have dp := z.deref
    have dp0 := (Z.upL.mpr z0).deref
    have da1 := z1.deref
    obtain ⟨b, eb, hb⟩ := (Z.upR.mpr (Z.upL.mp z)).isRed
    have := hb.mpr hu
    subst this
    simp only [T.ptr_node, C.par_left] at d eb dp dp0 da1
    simp [insertStep, d, eb, dp, dp0, da1, e0, e1, e2, e3]
  · intro x hx
    have t3 := f3 x (by simpa [C.keys_plug, T.keys] using hx)
    have t0 := f0 x (by simpa [C.keys_plug, T.keys, C.plug] using hx)
    simp only [C.keys_plug, T.keys, List.mem_append, List.mem_cons, not_or] at hx
    rw [t3, f2 x (by grind), f1 x (by grind), t0]

/-- The uncle is black, the new node is the right child of a right child. -/
theorem rotRR {h : Heap} {root : Ptr} {k : C} {p g pc gc a c : Nat} {l r s u : T}
    (z : Z h root (.right u g gc k) (.node s p pc (.node l a c r))) (hu : u.black) :
    ∃ h' root', insertStep h root (some a) (some p) (some g) = some (h', root', some a) ∧
      Z h' root' k (.node (.node u g 1 s) p 0 (.node l a c r)) ∧ Same h h' (k.plug (.node (.node u g 1 s) p 0 (.node l a c r))).keys := by
  obtain ⟨h1, e1, z1, f1⟩ := z.setRed 0
  obtain ⟨h2, e2, z2, f2⟩ := (Z.upR.mp z1).setRed 1
  obtain ⟨h3, root', e3, z3, f3⟩ := leftRotate_spec z2
  refine ⟨h3, root', ?_, z3, ?_⟩
  · have d := (Z.upR.mp z).deref
    have dp := z.deref
    have da := (Z.upR.mpr z).deref
    have dp' := z1.deref
    obtain ⟨b, eb, hb⟩ := (Z.upL.mpr (Z.upR.mp z)).isRed
    have := hb.mpr hu
    subst this
    have hn := z.nodup
    simp only [C.pre, C.post, T.keys, List.nodup_append, List.nodup_cons, List.mem_append, List.mem_cons] at hn
    have hne : some a ≠ s.ptr := ptr_ne (by grind)
    have hne' : some p ≠ u.ptr := ptr_ne (by grind)
    simp only [T.ptr_node, C.par_right] at d eb dp da dp'
    simp [insertStep, d, eb, dp, dp', da, hne, hne', e1, e2, e3]
  · intro x hx
    have := f3 x (by simpa [C.keys_plug, T.keys] using hx)
    simp only [C.keys_plug, T.keys, List.mem_append, List.mem_cons, not_or] at hx
    rw [this, f2 x (by grind), f1 x (by grind)]

/-- The uncle is black, the new node is the left child of a right child. -/
theorem rotRL {h : Heap} {root : Ptr} {k : C} {p g pc gc a c : Nat} {l r s u : T}
    (z : Z h root (.right u g gc k) (.node (.node l a c r) p pc s)) (hu : u.black) :
    ∃ h' root', insertStep h root (some a) (some p) (some g) = some (h', root', some p) ∧
      Z h' root' k (.node (.node u g 1 l) a 0 (.node r p pc s)) ∧ Same h h' (k.plug (.node (.node u g 1 l) a 0 (.node r p pc s))).keys := by
  obtain ⟨h0, root0, e0, z0, f0⟩ := rightRotate_spec z
  obtain ⟨h1, e1, z1, f1⟩ := z0.setRed 0
  obtain ⟨h2, e2, z2, f2⟩ := (Z.upR.mp z1).setRed 1
  obtain ⟨h3, root', e3, z3, f3⟩ := leftRotate_spec z2
  refine ⟨h3, root', ?_, z3, ?_⟩
  · have d := (Z.upR.mp z).deref
    have dp := z.deref
    have dp0 := (Z.upR.mpr z0).deref
    have da1 := z1.deref
    obtain ⟨b, eb, hb⟩ := (Z.upL.mpr (Z.upR.mp z)).isRed
    have := hb.mpr hu
    subst this
    have hn := z.nodup
    simp only [C.pre, C.post, T.keys, List.nodup_append, List.nodup_cons, List.mem_append, List.mem_cons] at hn
    have hne' : some p ≠ u.ptr := ptr_ne (by grind)
    simp only [T.ptr_node, C.par_right] at d eb dp dp0 da1
    simp [insertStep, d, eb, dp, dp0, da1, hne', e0, e1, e2, e3]
  · intro x hx
    have t3 := f3 x (by simpa [C.keys_plug, T.keys] using hx)
    have t0 := f0 x (by simpa [C.keys_plug, T.keys, C.plug, C.pre, C.post] using hx)
    simp only [C.keys_plug, T.keys, List.mem_append, List.mem_cons, not_or] at hx
    rw [t3, f2 x (by grind), f1 x (by grind), t0]

def C.depth : C → Nat
  | .top => 0
  | .left k _ _ _ => k.depth + 1
  | .right _ _ _ k => k.depth + 1

/-- The state after the loop: at the root, or anywhere in a balanced tree. -/
def Fixed (k : C) (l : T) (a c : Nat) (r : T) : Prop :=
  (k = .top ∧ ∃ m, Bal l m ∧ Bal r m) ∨ (k ≠ .top ∧ ∃ m, Bal (k.plug (.node l a c r)) m ∧ (k.plug (.node l a c r)).black)

theorem insertLoop_stop {h : Heap} {root : Ptr} {k : C} {l r : T} {a c : Nat} (z : Z h root k (.node l a c r)) (hp : ¬ k.parRed) (fuel : Nat) :
    insertLoop (fuel + 1) h root (some a) = some (h, root, some a) := by
  unfold insertLoop
  cases k with
  | top => have := z.root_iff.mpr rfl; simp [this]
  | left k p pc s =>
    have h1 : some a ≠ root := fun e => C.noConfusion (z.root_iff.mp e)
    have h2 := z.deref
    have h3 := (Z.upL.mp z).deref
    simp only [C.parRed, ne_eq, Classical.not_not] at hp
    subst hp
    simp [h1, h2, h3]
  | right s p pc k =>
    have h1 : some a ≠ root := fun e => C.noConfusion (z.root_iff.mp e)
    have h2 := z.deref
    have h3 := (Z.upR.mp z).deref
    simp only [C.parRed, ne_eq, Classical.not_not] at hp
    subst hp
    simp [h1, h2, h3]

theorem insertLoop_stepL {h h' : Heap} {root root' new' : Ptr} {k : C} {l r s : T} {a c p pc : Nat} (z : Z h root (.left k p pc s) (.node l a c r))
    (hp : pc ≠ 0) (hs : insertStep h root (some a) (some p) k.par = some (h', root', new')) (fuel : Nat) :
    insertLoop (fuel + 1) h root (some a) = insertLoop fuel h' root' new' := by
  have h1 : some a ≠ root := fun e => C.noConfusion (z.root_iff.mp e)
  have h2 := z.deref
  have h3 := (Z.upL.mp z).deref
  rw [insertLoop]
  simp [h1, h2, h3, hp, hs]

theorem insertLoop_stepR {h h' : Heap} {root root' new' : Ptr} {k : C} {l r s : T} {a c p pc : Nat} (z : Z h root (.right s p pc k) (.node l a c r))
    (hp : pc ≠ 0) (hs : insertStep h root (some a) (some p) k.par = some (h', root', new')) (fuel : Nat) :
    insertLoop (fuel + 1) h root (some a) = insertLoop fuel h' root' new' := by
  have h1 : some a ≠ root := fun e => C.noConfusion (z.root_iff.mp e)
  have h2 := z.deref
  have h3 := (Z.upR.mp z).deref
  rw [insertLoop]
  simp [h1, h2, h3, hp, hs]

/-- A tree is black, or has a red root. -/
theorem Bal.cases {t : T} {n : Nat} (h : Bal t n) : t.black ∨ ∃ l a r, t = .node l a 1 r ∧ l.black ∧ r.black ∧ Bal l n ∧ Bal r n := by
  cases t with
  | nil => exact Or.inl trivial
  | node l a c r =>
    rcases h with ⟨rfl, _⟩ | ⟨rfl, h⟩
    · exact Or.inl rfl
    · exact Or.inr ⟨l, a, r, rfl, h⟩

theorem Bal.red {l r : T} {a n : Nat} (h1 : Bal l n) (h2 : Bal r n) (h3 : l.black) (h4 : r.black) : Bal (.node l a 1 r) n :=
  Or.inr ⟨rfl, h3, h4, h1, h2⟩

theorem Bal.blk {l r : T} {a n : Nat} (h1 : Bal l n) (h2 : Bal r n) : Bal (.node l a 0 r) (n + 1) := Or.inl ⟨rfl, n, rfl, h1, h2⟩

theorem insertLoop_spec : ∀ (fuel : Nat) (h : Heap) (root : Ptr) (k : C) (l r : T) (a n : Nat), Z h root k (.node l a 1 r) → CBal k n →
    Bal l n → Bal r n → l.black → r.black → k.depth + 2 ≤ fuel →
    ∃ h' root' k' l' a' c' r', insertLoop fuel h root (some a) = some (h', root', some a') ∧ Z h' root' k' (.node l' a' c' r') ∧
      (k'.plug (.node l' a' c' r')).keys = (k.plug (.node l a 1 r)).keys ∧ Same h h' (k.plug (.node l a 1 r)).keys ∧ Fixed k' l' a' c' r' := by
  intro fuel
  induction fuel using Nat.strongRecOn with
  | ind fuel ih =>
  intro h root k l r a n z hk hl hr bl br hf
  -- the loop ends at a balanced tree
  have stop : ∀ (fuel : Nat) (h' : Heap) (root' : Ptr) (k' : C) (l' r' : T) (a' c' : Nat), 0 < fuel → Z h' root' k' (.node l' a' c' r') →
      ¬ k'.parRed → k' ≠ .top → (∃ m, Bal (k'.plug (.node l' a' c' r')) m ∧ (k'.plug (.node l' a' c' r')).black) →
      (k'.plug (.node l' a' c' r')).keys = (k.plug (.node l a 1 r)).keys → Same h h' (k.plug (.node l a 1 r)).keys →
      ∃ h'' root'' k'' l'' a'' c'' r'', insertLoop fuel h' root' (some a') = some (h'', root'', some a'') ∧ Z h'' root'' k'' (.node l'' a'' c'' r'') ∧
      (k''.plug (.node l'' a'' c'' r'')).keys = (k.plug (.node l a 1 r)).keys ∧ Same h h'' (k.plug (.node l a 1 r)).keys ∧
      Fixed k'' l'' a'' c'' r'' := by
    intro fuel h' root' k' l' r' a' c' h0 z' hp ht hb he hs
    obtain ⟨f, rfl⟩ : ∃ f, fuel = f + 1 := ⟨fuel - 1, by omega⟩
    exact ⟨h', root', k', l', a', c', r', insertLoop_stop z' hp f, z', he, hs, Or.inr ⟨ht, hb⟩⟩
  have ht : Bal (.node l a 1 r) n := .red hl hr bl br
  obtain ⟨f, rfl⟩ : ∃ f, fuel = f + 1 := ⟨fuel - 1, by omega⟩
  cases k with
  | top =>
    exact ⟨h, root, .top, l, a, 1, r, insertLoop_stop z (by simp [C.parRed]) f, z, rfl, .refl _ _, Or.inl ⟨rfl, n, hl, hr⟩⟩
  | left k1 p pc s =>
    obtain ⟨hs, hc⟩ := hk
    rcases hc with ⟨rfl, hk1⟩ | ⟨rfl, bs, hnr, hnt, hk1⟩
    · refine stop (f + 1) h root _ l r a 1 (by omega) z (by simp [C.parRed]) (fun c => C.noConfusion c) ?_ rfl (.refl _ _)
      exact Bal.plug (k := .left k1 p 0 s) ⟨hs, Or.inl ⟨rfl, hk1⟩⟩ ht (by simp [C.parRed]) (fun c => C.noConfusion c)
    · have zp := Z.upL.mp z
      cases k1 with
      | top => exact absurd rfl hnt
      | left k2 g gc u =>
        have : gc = 0 := by simpa [C.parRed] using hnr
        subst this
        obtain ⟨hu, hk1⟩ := hk1
        have hk2 : CBal k2 (n + 1) := by simpa using hk1
        clear hk1
        rcases hu.cases with ub | ⟨ul, ua, ur, rfl, bul, bur, hul, hur⟩
        · obtain ⟨h', root', e, z', hsm⟩ := rotLL zp ub
          rw [insertLoop_stepL z (by omega) e]
          have hb : Bal (.node (.node l a 1 r) p 0 (.node s g 1 u)) (n + 1) := .blk ht (.red hs hu bs ub)
          refine stop f h' root' (.left k2 p 0 (.node s g 1 u)) l r a 1 (by omega) (Z.upL.mpr z') (by simp [C.parRed])
            (fun c => C.noConfusion c) ?_ ?_ ?_
          · exact Bal.plug (t := .node (.node l a 1 r) p 0 (.node s g 1 u)) hk2 hb (fun _ => rfl) (fun _ => rfl)
          · simp [C.keys_plug, C.pre, C.post, T.keys]
          · intro x hx; exact hsm x (by simpa [C.keys_plug, C.pre, C.post, T.keys] using hx)
        · obtain ⟨h', e, z', hsm⟩ := recolorL (new := some a) zp (by omega)
          rw [insertLoop_stepL z (by omega) e]
          obtain ⟨h'', root'', k'', l'', a'', c'', r'', e1, e2, e3, e4, e5⟩ := ih f (by omega) h' root k2 _ _ g (n + 1) z' hk2
            (.blk ht hs) (.blk hul hur) rfl rfl (by simp only [C.depth] at hf; omega)
          refine ⟨h'', root'', k'', l'', a'', c'', r'', e1, e2, ?_, ?_, e5⟩
          · rw [e3]; simp [C.keys_plug, C.pre, C.post, T.keys]
          · intro x hx
            have hx' : x ∉ (k2.plug (.node (.node (.node l a 1 r) p 0 s) g 1 (.node ul ua 0 ur))).keys := by
              simpa [C.keys_plug, C.pre, C.post, T.keys] using hx
            rw [e4 x hx', hsm x hx']
      | right u g gc k2 =>
        have : gc = 0 := by simpa [C.parRed] using hnr
        subst this
        obtain ⟨hu, hk1⟩ := hk1
        have hk2 : CBal k2 (n + 1) := by simpa using hk1
        clear hk1
        rcases hu.cases with ub | ⟨ul, ua, ur, rfl, bul, bur, hul, hur⟩
        · obtain ⟨h', root', e, z', hsm⟩ := rotRL zp ub
          rw [insertLoop_stepL z (by omega) e]
          have hb : Bal (.node (.node u g 1 l) a 0 (.node r p 1 s)) (n + 1) := .blk (.red hu hl ub bl) (.red hr hs br bs)
          refine stop f h' root' (.right (.node u g 1 l) a 0 k2) r s p 1 (by omega) (Z.upR.mpr z') (by simp [C.parRed])
            (fun c => C.noConfusion c) ?_ ?_ ?_
          · exact Bal.plug (t := .node (.node u g 1 l) a 0 (.node r p 1 s)) hk2 hb (fun _ => rfl) (fun _ => rfl)
          · simp [C.keys_plug, C.pre, C.post, T.keys]
          · intro x hx; exact hsm x (by simpa [C.keys_plug, C.pre, C.post, T.keys] using hx)
        · obtain ⟨h', e, z', hsm⟩ := recolorR (new := some a) zp (by omega)
          rw [insertLoop_stepL z (by omega) e]
          obtain ⟨h'', root'', k'', l'', a'', c'', r'', e1, e2, e3, e4, e5⟩ := ih f (by omega) h' root k2 _ _ g (n + 1) z' hk2
            (.blk hul hur) (.blk ht hs) rfl rfl (by simp only [C.depth] at hf; omega)
          refine ⟨h'', root'', k'', l'', a'', c'', r'', e1, e2, ?_, ?_, e5⟩
          · rw [e3]; simp [C.keys_plug, C.pre, C.post, T.keys]
          · intro x hx
            have hx' : x ∉ (k2.plug (.node (.node ul ua 0 ur) g 1 (.node (.node l a 1 r) p 0 s))).keys := by
              simpa [C.keys_plug, C.pre, C.post, T.keys] using hx
            rw [e4 x hx', hsm x hx']
  | right s p pc k1 =>
    obtain ⟨hs, hc⟩ := hk
    rcases hc with ⟨rfl, hk1⟩ | ⟨rfl, bs, hnr, hnt, hk1⟩
    · refine stop (f + 1) h root _ l r a 1 (by omega) z (by simp [C.parRed]) (fun c => C.noConfusion c) ?_ rfl (.refl _ _)
      exact Bal.plug (k := .right s p 0 k1) ⟨hs, Or.inl ⟨rfl, hk1⟩⟩ ht (by simp [C.parRed]) (fun c => C.noConfusion c)
    · have zp := Z.upR.mp z
      cases k1 with
      | top => exact absurd rfl hnt
      | left k2 g gc u =>
        have : gc = 0 := by simpa [C.parRed] using hnr
        subst this
        obtain ⟨hu, hk1⟩ := hk1
        have hk2 : CBal k2 (n + 1) := by simpa using hk1
        clear hk1
        rcases hu.cases with ub | ⟨ul, ua, ur, rfl, bul, bur, hul, hur⟩
        · obtain ⟨h', root', e, z', hsm⟩ := rotLR zp ub
          rw [insertLoop_stepR z (by omega) e]
          have hb : Bal (.node (.node s p 1 l) a 0 (.node r g 1 u)) (n + 1) := .blk (.red hs hl bs bl) (.red hr hu br ub)
          refine stop f h' root' (.left k2 a 0 (.node r g 1 u)) s l p 1 (by omega) (Z.upL.mpr z') (by simp [C.parRed])
            (fun c => C.noConfusion c) ?_ ?_ ?_
          · exact Bal.plug (t := .node (.node s p 1 l) a 0 (.node r g 1 u)) hk2 hb (fun _ => rfl) (fun _ => rfl)
          · simp [C.keys_plug, C.pre, C.post, T.keys]
          · intro x hx; exact hsm x (by simpa [C.keys_plug, C.pre, C.post, T.keys] using hx)
        · obtain ⟨h', e, z', hsm⟩ := recolorL (new := some a) zp (by omega)
          rw [insertLoop_stepR z (by omega) e]
          obtain ⟨h'', root'', k'', l'', a'', c'', r'', e1, e2, e3, e4, e5⟩ := ih f (by omega) h' root k2 _ _ g (n + 1) z' hk2
            (.blk hs ht) (.blk hul hur) rfl rfl (by simp only [C.depth] at hf; omega)
          refine ⟨h'', root'', k'', l'', a'', c'', r'', e1, e2, ?_, ?_, e5⟩
          · rw [e3]; simp [C.keys_plug, C.pre, C.post, T.keys]
          · intro x hx
            have hx' : x ∉ (k2.plug (.node (.node s p 0 (.node l a 1 r)) g 1 (.node ul ua 0 ur))).keys := by
              simpa [C.keys_plug, C.pre, C.post, T.keys] using hx
            rw [e4 x hx', hsm x hx']
      | right u g gc k2 =>
        have : gc = 0 := by simpa [C.parRed] using hnr
        subst this
        obtain ⟨hu, hk1⟩ := hk1
        have hk2 : CBal k2 (n + 1) := by simpa using hk1
        clear hk1
        rcases hu.cases with ub | ⟨ul, ua, ur, rfl, bul, bur, hul, hur⟩
        · obtain ⟨h', root', e, z', hsm⟩ := rotRR zp ub
          rw [insertLoop_stepR z (by omega) e]
          have hb : Bal (.node (.node u g 1 s) p 0 (.node l a 1 r)) (n + 1) := .blk (.red hu hs ub bs) ht
          refine stop f h' root' (.right (.node u g 1 s) p 0 k2) l r a 1 (by omega) (Z.upR.mpr z') (by simp [C.parRed])
            (fun c => C.noConfusion c) ?_ ?_ ?_
          · exact Bal.plug (t := .node (.node u g 1 s) p 0 (.node l a 1 r)) hk2 hb (fun _ => rfl) (fun _ => rfl)
          · simp [C.keys_plug, C.pre, C.post, T.keys]
          · intro x hx; exact hsm x (by simpa [C.keys_plug, C.pre, C.post, T.keys] using hx)
        · obtain ⟨h', e, z', hsm⟩ := recolorR (new := some a) zp (by omega)
          rw [insertLoop_stepR z (by omega) e]
          obtain ⟨h'', root'', k'', l'', a'', c'', r'', e1, e2, e3, e4, e5⟩ := ih f (by omega) h' root k2 _ _ g (n + 1) z' hk2
            (.blk hul hur) (.blk hs ht) rfl rfl (by simp only [C.depth] at hf; omega)
          refine ⟨h'', root'', k'', l'', a'', c'', r'', e1, e2, ?_, ?_, e5⟩
          · rw [e3]; simp [C.keys_plug, C.pre, C.post, T.keys]
          · intro x hx
            have hx' : x ∉ (k2.plug (.node (.node ul ua 0 ur) g 1 (.node s p 0 (.node l a 1 r)))).keys := by
              simpa [C.keys_plug, C.pre, C.post, T.keys] using hx
            rw [e4 x hx', hsm x hx']

end Verif.Rb
