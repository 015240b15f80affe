import Verif.Rb.Lemmas

namespace Verif.Rb

set_option linter.unusedSimpArgs false

/-- Consequences of distinct addresses around a node `x` and its child `y`. -/
structure ND (P A B D Q : List Nat) (x y : Nat) : Prop where
  xy : x ≠ y
  xA : x ∉ A
  xB : x ∉ B
  xD : x ∉ D
  yA : y ∉ A
  yB : y ∉ B
  yD : y ∉ D
  AB : ∀ a ∈ A, a ∉ B
  AD : ∀ a ∈ A, a ∉ D
  BD : ∀ a ∈ B, a ∉ D
  out : ∀ a ∈ P ++ Q, a ≠ x ∧ a ≠ y ∧ a ∉ A ∧ a ∉ B ∧ a ∉ D
  nA : A.Nodup
  nB : B.Nodup
  nD : D.Nodup
  nPQ : (P ++ Q).Nodup

theorem nd {P A B D Q : List Nat} {x y : Nat} (h : (P ++ (A ++ x :: (B ++ y :: D)) ++ Q).Nodup) : ND P A B D Q x y := by
  simp only [List.nodup_append, List.nodup_cons, List.mem_append, List.mem_cons, not_or] at h
  constructor
  all_goals grind
theorem nd' {P A B D Q : List Nat} {x y : Nat} (h : (P ++ ((D ++ y :: B) ++ x :: A) ++ Q).Nodup) : ND P A B D Q x y := by
  simp only [List.nodup_append, List.nodup_cons, List.mem_append, List.mem_cons, not_or] at h
  constructor
  all_goals grind

theorem ptr_mem {t : T} {b : Nat} (h : t.ptr = some b) : b ∈ t.keys := by
  cases t with
  | nil => exact absurd h (by simp [T.ptr])
  | node l a c r => simp only [T.ptr, Option.some.injEq] at h; subst h; simp [T.keys]

theorem par_mem {k : C} {b : Nat} (h : k.par = some b) : b ∈ k.pre ++ k.post := by
  cases k with
  | top => exact absurd h (by simp [C.par])
  | left k a c r => simp only [C.par, Option.some.injEq] at h; subst h; simp [C.pre, C.post]
  | right l a c k => simp only [C.par, Option.some.injEq] at h; subst h; simp [C.pre, C.post]

theorem leftRotate_exec {h : Heap} {root : Ptr} {k : C} {A B D : T} {x y cx cy : Nat} (z : Z h root k (.node A x cx (.node B y cy D))) :
    ∃ h' root', leftRotate h root (some x) = some (h', root') ∧
      h' x = some ⟨some y, A.ptr, B.ptr, cx⟩ ∧ h' y = some ⟨k.par, some x, D.ptr, cy⟩ ∧
      (∀ b n, B.ptr = some b → h b = some n → h' b = some { n with parent := some x }) ∧
      (k = .top → root' = some y) ∧ (k ≠ .top → root' = root) ∧
      (∀ k' a c r, k = .left k' a c r → h' a = some ⟨k'.par, some y, r.ptr, c⟩) ∧
      (∀ k' a c l, k = .right l a c k' → h' a = some ⟨k'.par, l.ptr, some y, c⟩) ∧
      (∀ a, a ≠ x → a ≠ y → some a ≠ B.ptr → some a ≠ k.par → h' a = h a) := by
  obtain ⟨⟨hx, hA, hy, hB, hD⟩, hk, hn⟩ := z
  simp only [T.ptr_node] at hx hy
  have d := nd hn
  have hxy := d.xy
  cases B with
  | nil =>
    cases k with
    | top =>
      simp only [CSub, T.ptr_node, C.par_top] at hk hx
      refine ⟨_, _, by simp [leftRotate, deref, setRight, setLeft, setParent, modify, hx, hy, hxy, hxy.symm]; exact ⟨rfl, rfl⟩, ?_⟩
      simp [hx, hy, hxy, hxy.symm]
      try grind
    | left k p c r =>
      obtain ⟨hp, -, -⟩ := hk
      obtain ⟨f1, f2, -, f5, -⟩ := d.out p (par_mem rfl)
      have f3 : some x ≠ T.ptr r := fun e => (d.out x (by have := ptr_mem e.symm; simp [C.pre, C.post, this])).1 rfl
      simp only [C.par_left, C.par_right, T.ptr_node] at hx hp
      refine ⟨_, _, by simp [leftRotate, deref, setRight, setLeft, setParent, modify, hx, hy, hxy, hxy.symm, hp, f1, f2, f3, f1.symm, f2.symm, f3.symm]; exact ⟨rfl, rfl⟩, ?_⟩
      simp [hx, hy, hxy, hxy.symm, hp, f1, f2, f3, f1.symm, f2.symm, f3.symm]
      try grind
    | right l p c k =>
      obtain ⟨hp, -, -⟩ := hk
      obtain ⟨f1, f2, -, f5, -⟩ := d.out p (par_mem rfl)
      have f3 : some x ≠ T.ptr l := fun e => (d.out x (by have := ptr_mem e.symm; simp [C.pre, C.post, this])).1 rfl
      simp only [C.par_left, C.par_right, T.ptr_node] at hx hp
      refine ⟨_, _, by simp [leftRotate, deref, setRight, setLeft, setParent, modify, hx, hy, hxy, hxy.symm, hp, f1, f2, f3, f1.symm, f2.symm, f3.symm]; exact ⟨rfl, rfl⟩, ?_⟩
      simp [hx, hy, hxy, hxy.symm, hp, f1, f2, f3, f1.symm, f2.symm, f3.symm]
      try grind
  | node b1 b cb b2 =>
    obtain ⟨hb, -, -⟩ := hB
    have e0 : b ∈ (T.node b1 b cb b2).keys := ptr_mem rfl
    have e1 : b ≠ x := fun e => d.xB (e ▸ e0)
    have e2 : b ≠ y := fun e => d.yB (e ▸ e0)
    cases k with
    | top =>
      simp only [CSub, T.ptr_node, C.par_top] at hk hx
      refine ⟨_, _, by simp [leftRotate, deref, setRight, setLeft, setParent, modify, hx, hy, hxy, hxy.symm, hb, e1, e2, e1.symm, e2.symm]; exact ⟨rfl, rfl⟩, ?_⟩
      simp [hx, hy, hxy, hxy.symm, hb, e1, e2, e1.symm, e2.symm]
      try grind
    | left k p c r =>
      obtain ⟨hp, -, -⟩ := hk
      obtain ⟨f1, f2, -, f5, -⟩ := d.out p (par_mem rfl)
      have f3 : some x ≠ T.ptr r := fun e => (d.out x (by have := ptr_mem e.symm; simp [C.pre, C.post, this])).1 rfl
      have f4 : p ≠ b := fun e => f5 (e ▸ e0)
      simp only [C.par_left, C.par_right, T.ptr_node] at hx hp
      refine ⟨_, _, by simp [leftRotate, deref, setRight, setLeft, setParent, modify, hx, hy, hxy, hxy.symm, hb, e1, e2, e1.symm, e2.symm, hp, f1, f2, f3, f1.symm, f2.symm, f3.symm, f4, f4.symm]; exact ⟨rfl, rfl⟩, ?_⟩
      simp [hx, hy, hxy, hxy.symm, hb, e1, e2, e1.symm, e2.symm, hp, f1, f2, f3, f1.symm, f2.symm, f3.symm, f4, f4.symm]
      try grind
    | right l p c k =>
      obtain ⟨hp, -, -⟩ := hk
      obtain ⟨f1, f2, -, f5, -⟩ := d.out p (par_mem rfl)
      have f3 : some x ≠ T.ptr l := fun e => (d.out x (by have := ptr_mem e.symm; simp [C.pre, C.post, this])).1 rfl
      have f4 : p ≠ b := fun e => f5 (e ▸ e0)
      simp only [C.par_left, C.par_right, T.ptr_node] at hx hp
      refine ⟨_, _, by simp [leftRotate, deref, setRight, setLeft, setParent, modify, hx, hy, hxy, hxy.symm, hb, e1, e2, e1.symm, e2.symm, hp, f1, f2, f3, f1.symm, f2.symm, f3.symm, f4, f4.symm]; exact ⟨rfl, rfl⟩, ?_⟩
      simp [hx, hy, hxy, hxy.symm, hb, e1, e2, e1.symm, e2.symm, hp, f1, f2, f3, f1.symm, f2.symm, f3.symm, f4, f4.symm]
      try grind

theorem leftRotate_spec {h : Heap} {root : Ptr} {k : C} {A B D : T} {x y cx cy : Nat} (z : Z h root k (.node A x cx (.node B y cy D))) :
    ∃ h' root', leftRotate h root (some x) = some (h', root') ∧ Z h' root' k (.node (.node A x cx B) y cy D) ∧
      ∀ a, a ∉ (k.plug (.node A x cx (.node B y cy D))).keys → h' a = h a := by
  obtain ⟨h', root', e, e1, e2, e3, e4, e5, e6, e7, e8⟩ := leftRotate_exec z
  obtain ⟨⟨hx, hA, hy, hB, hD⟩, hk, hn⟩ := z
  have d := nd hn
  have nb : ∀ a, a ∉ B.keys → some a ≠ B.ptr := fun a ha e => ha (ptr_mem e.symm)
  have nk : ∀ a, a ∉ k.pre ++ k.post → some a ≠ k.par := fun a ha e => ha (par_mem e.symm)
  have sA : Sub h' (some x) A := hA.frame fun a ha => e8 a (fun e => d.xA (e ▸ ha)) (fun e => d.yA (e ▸ ha)) (nb a (d.AB a ha))
    (nk a fun c => (d.out a c).2.2.1 ha)
  have sD : Sub h' (some y) D := hD.frame fun a ha => e8 a (fun e => d.xD (e ▸ ha)) (fun e => d.yD (e ▸ ha)) (nb a fun c => d.BD a c ha)
    (nk a fun c => (d.out a c).2.2.2.2 ha)
  have sB : Sub h' (some x) B := hB.reparent d.nB (fun a ha hne => e8 a (fun e => d.xB (e ▸ ha)) (fun e => d.yB (e ▸ ha)) hne
    (nk a fun c => (d.out a c).2.2.2.1 ha)) e3
  have sk : CSub h' root' k (some y) := by
    by_cases hk0 : k = .top
    · subst hk0; exact e4 rfl
    · rw [e5 hk0]
      refine hk.rechild d.nPQ hk0 (fun a ha hne => ?_) e6 e7
      obtain ⟨o1, o2, o3, o4, o5⟩ := d.out a ha
      exact e8 a o1 o2 (nb a o4) hne
  refine ⟨h', root', e, ⟨⟨e2, ⟨e1, sA, sB⟩, sD⟩, sk, ?_⟩, ?_⟩
  · simp only [T.keys, List.append_assoc, List.cons_append] at hn ⊢; exact hn
  · intro a ha
    simp only [C.keys_plug, T.keys, List.mem_append, List.mem_cons, not_or] at ha
    exact e8 a (by grind) (by grind) (nb a (by grind)) (nk a (by simp only [List.mem_append]; grind))

theorem rightRotate_exec {h : Heap} {root : Ptr} {k : C} {A B D : T} {x y cx cy : Nat} (z : Z h root k (.node (.node D y cy B) x cx A)) :
    ∃ h' root', rightRotate h root (some x) = some (h', root') ∧
      h' x = some ⟨some y, B.ptr, A.ptr, cx⟩ ∧ h' y = some ⟨k.par, D.ptr, some x, cy⟩ ∧
      (∀ b n, B.ptr = some b → h b = some n → h' b = some { n with parent := some x }) ∧
      (k = .top → root' = some y) ∧ (k ≠ .top → root' = root) ∧
      (∀ k' a c r, k = .left k' a c r → h' a = some ⟨k'.par, some y, r.ptr, c⟩) ∧
      (∀ k' a c l, k = .right l a c k' → h' a = some ⟨k'.par, l.ptr, some y, c⟩) ∧
      (∀ a, a ≠ x → a ≠ y → some a ≠ B.ptr → some a ≠ k.par → h' a = h a) := by
  obtain ⟨⟨hx, ⟨hy, hD, hB⟩, hA⟩, hk, hn⟩ := z
  simp only [T.ptr_node] at hx hy
  have d := nd' hn
  have hxy := d.xy
  cases B with
  | nil =>
    cases k with
    | top =>
      simp only [CSub, T.ptr_node, C.par_top] at hk hx
      refine ⟨_, _, by simp [rightRotate, deref, setRight, setLeft, setParent, modify, hx, hy, hxy, hxy.symm]; exact ⟨rfl, rfl⟩, ?_⟩
      simp [hx, hy, hxy, hxy.symm]
      try grind
    | left k p c r =>
      obtain ⟨hp, -, -⟩ := hk
      obtain ⟨f1, f2, -, f5, -⟩ := d.out p (par_mem rfl)
      have f3 : some x ≠ T.ptr r := fun e => (d.out x (by have := ptr_mem e.symm; simp [C.pre, C.post, this])).1 rfl
      simp only [C.par_left, C.par_right, T.ptr_node] at hx hp
      refine ⟨_, _, by simp [rightRotate, deref, setRight, setLeft, setParent, modify, hx, hy, hxy, hxy.symm, hp, f1, f2, f3, f1.symm, f2.symm, f3.symm]; exact ⟨rfl, rfl⟩, ?_⟩
      simp [hx, hy, hxy, hxy.symm, hp, f1, f2, f3, f1.symm, f2.symm, f3.symm]
      try grind
    | right l p c k =>
      obtain ⟨hp, -, -⟩ := hk
      obtain ⟨f1, f2, -, f5, -⟩ := d.out p (par_mem rfl)
      have f3 : some x ≠ T.ptr l := fun e => (d.out x (by have := ptr_mem e.symm; simp [C.pre, C.post, this])).1 rfl
      simp only [C.par_left, C.par_right, T.ptr_node] at hx hp
      refine ⟨_, _, by simp [rightRotate, deref, setRight, setLeft, setParent, modify, hx, hy, hxy, hxy.symm, hp, f1, f2, f3, f1.symm, f2.symm, f3.symm]; exact ⟨rfl, rfl⟩, ?_⟩
      simp [hx, hy, hxy, hxy.symm, hp, f1, f2, f3, f1.symm, f2.symm, f3.symm]
      try grind
  | node b1 b cb b2 =>
    obtain ⟨hb, -, -⟩ := hB
    have e0 : b ∈ (T.node b1 b cb b2).keys := ptr_mem rfl
    have e1 : b ≠ x := fun e => d.xB (e ▸ e0)
    have e2 : b ≠ y := fun e => d.yB (e ▸ e0)
    cases k with
    | top =>
      simp only [CSub, T.ptr_node, C.par_top] at hk hx
      refine ⟨_, _, by simp [rightRotate, deref, setRight, setLeft, setParent, modify, hx, hy, hxy, hxy.symm, hb, e1, e2, e1.symm, e2.symm]; exact ⟨rfl, rfl⟩, ?_⟩
      simp [hx, hy, hxy, hxy.symm, hb, e1, e2, e1.symm, e2.symm]
      try grind
    | left k p c r =>
      obtain ⟨hp, -, -⟩ := hk
      obtain ⟨f1, f2, -, f5, -⟩ := d.out p (par_mem rfl)
      have f3 : some x ≠ T.ptr r := fun e => (d.out x (by have := ptr_mem e.symm; simp [C.pre, C.post, this])).1 rfl
      have f4 : p ≠ b := fun e => f5 (e ▸ e0)
      simp only [C.par_left, C.par_right, T.ptr_node] at hx hp
      refine ⟨_, _, by simp [rightRotate, deref, setRight, setLeft, setParent, modify, hx, hy, hxy, hxy.symm, hb, e1, e2, e1.symm, e2.symm, hp, f1, f2, f3, f1.symm, f2.symm, f3.symm, f4, f4.symm]; exact ⟨rfl, rfl⟩, ?_⟩
      simp [hx, hy, hxy, hxy.symm, hb, e1, e2, e1.symm, e2.symm, hp, f1, f2, f3, f1.symm, f2.symm, f3.symm, f4, f4.symm]
      try grind
    | right l p c k =>
      obtain ⟨hp, -, -⟩ := hk
      obtain ⟨f1, f2, -, f5, -⟩ := d.out p (par_mem rfl)
      have f3 : some x ≠ T.ptr l := fun e => (d.out x (by have := ptr_mem e.symm; simp [C.pre, C.post, this])).1 rfl
      have f4 : p ≠ b := fun e => f5 (e ▸ e0)
      simp only [C.par_left, C.par_right, T.ptr_node] at hx hp
      refine ⟨_, _, by simp [rightRotate, deref, setRight, setLeft, setParent, modify, hx, hy, hxy, hxy.symm, hb, e1, e2, e1.symm, e2.symm, hp, f1, f2, f3, f1.symm, f2.symm, f3.symm, f4, f4.symm]; exact ⟨rfl, rfl⟩, ?_⟩
      simp [hx, hy, hxy, hxy.symm, hb, e1, e2, e1.symm, e2.symm, hp, f1, f2, f3, f1.symm, f2.symm, f3.symm, f4, f4.symm]
      try grind

theorem rightRotate_spec {h : Heap} {root : Ptr} {k : C} {A B D : T} {x y cx cy : Nat} (z : Z h root k (.node (.node D y cy B) x cx A)) :
    ∃ h' root', rightRotate h root (some x) = some (h', root') ∧ Z h' root' k (.node D y cy (.node B x cx A)) ∧
      ∀ a, a ∉ (k.plug (.node (.node D y cy B) x cx A)).keys → h' a = h a := by
  obtain ⟨h', root', e, e1, e2, e3, e4, e5, e6, e7, e8⟩ := rightRotate_exec z
  obtain ⟨⟨hx, ⟨hy, hD, hB⟩, hA⟩, hk, hn⟩ := z
  have d := nd' hn
  have nb : ∀ a, a ∉ B.keys → some a ≠ B.ptr := fun a ha e => ha (ptr_mem e.symm)
  have nk : ∀ a, a ∉ k.pre ++ k.post → some a ≠ k.par := fun a ha e => ha (par_mem e.symm)
  have sA : Sub h' (some x) A := hA.frame fun a ha => e8 a (fun e => d.xA (e ▸ ha)) (fun e => d.yA (e ▸ ha)) (nb a (d.AB a ha))
    (nk a fun c => (d.out a c).2.2.1 ha)
  have sD : Sub h' (some y) D := hD.frame fun a ha => e8 a (fun e => d.xD (e ▸ ha)) (fun e => d.yD (e ▸ ha)) (nb a fun c => d.BD a c ha)
    (nk a fun c => (d.out a c).2.2.2.2 ha)
  have sB : Sub h' (some x) B := hB.reparent d.nB (fun a ha hne => e8 a (fun e => d.xB (e ▸ ha)) (fun e => d.yB (e ▸ ha)) hne
    (nk a fun c => (d.out a c).2.2.2.1 ha)) e3
  have sk : CSub h' root' k (some y) := by
    by_cases hk0 : k = .top
    · subst hk0; exact e4 rfl
    · rw [e5 hk0]
      refine hk.rechild d.nPQ hk0 (fun a ha hne => ?_) e6 e7
      obtain ⟨o1, o2, o3, o4, o5⟩ := d.out a ha
      exact e8 a o1 o2 (nb a o4) hne
  refine ⟨h', root', e, ⟨⟨e2, sD, ⟨e1, sB, sA⟩⟩, sk, ?_⟩, ?_⟩
  · simp only [T.keys, List.append_assoc, List.cons_append] at hn ⊢; exact hn
  · intro a ha
    simp only [C.keys_plug, T.keys, List.mem_append, List.mem_cons, not_or] at ha
    exact e8 a (by grind) (by grind) (nb a (by grind)) (nk a (by simp only [List.mem_append]; grind))

end Verif.Rb
