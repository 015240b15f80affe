import Verif.Rb.Search

/-!
Steps of the loop of `kos_red_black_delete` in every configuration.
-/
namespace Verif.Rb

set_option linter.unusedSimpArgs false

/-- Red sibling, node on the left. -/
theorem del1L {h : Heap} {root : Ptr} {k : C} {p s a : Nat} {l r x y : T} (z : Z h root (.left k p 0 (.node x s 1 y)) (.node l a 2 r)) :
    ∃ h' root', deleteStep h root (some a) (some p) = some (h', root', some a) ∧ Z h' root' (.left (.left k s 0 y) p 1 x) (.node l a 2 r) ∧
      Same h h' (C.plug (.left k p 0 (.node x s 1 y)) (.node l a 2 r)).keys := by
  have zp := Z.upL.mp z
  obtain ⟨h1, root1, e1, z1, f1⟩ := leftRotate_spec zp
  obtain ⟨h2, e2, z2, f2⟩ := (Z.upL.mpr z1).setRed 1
  obtain ⟨h3, e3, z3, f3⟩ := (Z.upL.mp z2).setRed 0
  refine ⟨h3, root1, ?_, Z.upL.mpr (Z.upL.mpr z3), ?_⟩
  · have dp := zp.deref
    have ds := (Z.upR.mpr zp).deref
    have hn := z.nodup
    have hne : s ≠ a := by
      rintro rfl
      simp only [C.pre, C.post, T.keys, List.nodup_append, List.nodup_cons, List.mem_append, List.mem_cons] at hn
      grind
    simp only [T.ptr_node] at dp ds e1 e2 e3
    simp [deleteStep, dp, ds, e1, e2, e3, hne]
  · intro b hb
    have t1 := f1 b (by simpa [C.keys_plug, C.pre, C.post, T.keys] using hb)
    simp only [C.keys_plug, C.pre, C.post, T.keys, List.mem_append, List.mem_cons, not_or] at hb
    rw [f3 b (by grind), f2 b (by grind), t1]

/-- Black sibling, red far nephew, node on the left. -/
theorem del2L {h : Heap} {root : Ptr} {k : C} {p s a q pc : Nat} {l r x y w : T}
    (z : Z h root (.left k p pc (.node x s 0 (.node y q 1 w))) (.node l a 2 r)) :
    ∃ h' root', deleteStep h root (some a) (some p) = some (h', root', some p) ∧ Z h' root' (.left k s pc (.node y q 0 w)) (.node (.node l a 0 r) p 0 x) ∧
      Same h h' (C.plug (.left k p pc (.node x s 0 (.node y q 1 w))) (.node l a 2 r)).keys := by
  have zp := Z.upL.mp z
  obtain ⟨h1, root1, e1, z1, f1⟩ := leftRotate_spec zp
  obtain ⟨h2, e2, z2, f2⟩ := z1.setRed pc
  obtain ⟨h3, e3, z3, f3⟩ := (Z.upL.mpr z2).setRed 0
  obtain ⟨h4, e4, z4, f4⟩ := (Z.upR.mpr (Z.upL.mp z3)).setRed 0
  obtain ⟨h5, e5, z5, f5⟩ := (Z.upL.mpr (Z.upL.mpr (Z.upR.mp z4))).setRed 0
  refine ⟨h5, root1, ?_, Z.upL.mp z5, ?_⟩
  · have dp := zp.deref
    have ds := (Z.upR.mpr zp).deref
    have dq := (Z.upR.mpr (Z.upR.mpr zp)).deref
    have dp1 := (Z.upL.mpr z1).deref
    have ds3 := (Z.upL.mp z3).deref
    obtain ⟨b, eb, hb⟩ := (Z.upL.mpr (Z.upR.mpr zp)).isRed
    obtain ⟨b', eb', hb'⟩ := (Z.upR.mpr (Z.upR.mpr zp)).isRed
    have : b' = true := by
      cases b' with
      | true => rfl
      | false => exact absurd (hb'.mp rfl) (by simp [T.black])
    subst this
    have hn := z.nodup
    have hne : s ≠ a := by
      rintro rfl
      simp only [C.pre, C.post, T.keys, List.nodup_append, List.nodup_cons, List.mem_append, List.mem_cons] at hn
      grind
    simp only [T.ptr_node] at dp ds dq dp1 ds3 e1 e2 e3 e4 e5 eb eb'
    simp [deleteStep, dp, ds, dq, dp1, ds3, e1, e2, e3, e4, e5, eb, eb', hne]
  · intro b hb
    have t1 := f1 b (by simpa [C.keys_plug, C.pre, C.post, T.keys] using hb)
    simp only [C.keys_plug, C.pre, C.post, T.keys, List.mem_append, List.mem_cons, not_or] at hb
    rw [f5 b (by grind), f4 b (by grind), f3 b (by grind), f2 b (by grind), t1]

/-- Black sibling, only the near nephew is red, node on the left. -/
theorem del3L {h : Heap} {root : Ptr} {k : C} {p s a q pc : Nat} {l r x y w : T}
    (z : Z h root (.left k p pc (.node (.node x q 1 y) s 0 w)) (.node l a 2 r)) (hw : w.black) :
    ∃ h' root', deleteStep h root (some a) (some p) = some (h', root', some a) ∧ Z h' root' (.left k p pc (.node x q 0 (.node y s 1 w))) (.node l a 2 r) ∧
      Same h h' (C.plug (.left k p pc (.node (.node x q 1 y) s 0 w)) (.node l a 2 r)).keys := by
  have zp := Z.upL.mp z
  have zs := Z.upR.mpr zp
  obtain ⟨h1, e1, z1, f1⟩ := (Z.upL.mpr zs).setRed 0
  obtain ⟨h2, e2, z2, f2⟩ := (Z.upL.mp z1).setRed 1
  obtain ⟨h3, root3, e3, z3, f3⟩ := rightRotate_spec z2
  refine ⟨h3, root3, ?_, Z.upL.mpr (Z.upR.mp z3), ?_⟩
  · have dp := zp.deref
    have ds := zs.deref
    obtain ⟨b, eb, hb⟩ := (Z.upL.mpr zs).isRed
    obtain ⟨b', eb', hb'⟩ := (Z.upR.mpr zs).isRed
    have := hb'.mpr hw
    subst this
    have : b = true := by
      cases b with
      | true => rfl
      | false => exact absurd (hb.mp rfl) (by simp [T.black])
    subst this
    have hn := z.nodup
    have hne : s ≠ a := by
      rintro rfl
      simp only [C.pre, C.post, T.keys, List.nodup_append, List.nodup_cons, List.mem_append, List.mem_cons] at hn
      grind
    simp only [T.ptr_node] at dp ds e1 e2 e3 eb eb'
    simp [deleteStep, dp, ds, e1, e2, e3, eb, eb', hne]
  · intro b hb
    have t1 := f3 b (by simpa [C.keys_plug, C.pre, C.post, T.keys] using hb)
    simp only [C.keys_plug, C.pre, C.post, T.keys, List.mem_append, List.mem_cons, not_or] at hb
    rw [t1, f2 b (by grind), f1 b (by grind)]

/-- Black sibling, no red nephew, node on the left. -/
theorem del4L {h : Heap} {root : Ptr} {k : C} {p s a pc : Nat} {l r x w : T}
    (z : Z h root (.left k p pc (.node x s 0 w)) (.node l a 2 r)) (hx : x.black) (hw : w.black) :
    ∃ h', deleteStep h root (some a) (some p) = some (h', root, some p) ∧ Z h' root k (.node (.node l a 0 r) p (if pc ≠ 0 then 0 else 2) (.node x s 1 w)) ∧
      Same h h' (C.plug (.left k p pc (.node x s 0 w)) (.node l a 2 r)).keys := by
  have zp := Z.upL.mp z
  obtain ⟨h1, e1, z1, f1⟩ := zp.setRed (if pc ≠ 0 then 0 else 2)
  obtain ⟨h2, e2, z2, f2⟩ := (Z.upL.mpr z1).setRed 0
  obtain ⟨h3, e3, z3, f3⟩ := (Z.upR.mpr (Z.upL.mp z2)).setRed 1
  refine ⟨h3, ?_, Z.upR.mp z3, ?_⟩
  · have dp := zp.deref
    have ds := (Z.upR.mpr zp).deref
    obtain ⟨b, eb, hb⟩ := (Z.upL.mpr (Z.upR.mpr zp)).isRed
    obtain ⟨b', eb', hb'⟩ := (Z.upR.mpr (Z.upR.mpr zp)).isRed
    have := hb'.mpr hw
    subst this
    have := hb.mpr hx
    subst this
    have hn := z.nodup
    have hne : s ≠ a := by
      rintro rfl
      simp only [C.pre, C.post, T.keys, List.nodup_append, List.nodup_cons, List.mem_append, List.mem_cons] at hn
      grind
    simp only [ne_eq, ite_not] at e1 e2 e3
    simp only [T.ptr_node] at dp ds e1 e2 e3 eb eb'
    simp [deleteStep, dp, ds, e1, e2, e3, eb, eb', hne]
  · intro b hb
    simp only [C.keys_plug, C.pre, C.post, T.keys, List.mem_append, List.mem_cons, not_or] at hb
    rw [f3 b (by grind), f2 b (by grind), f1 b (by grind)]

/-- Red sibling, node on the right. -/
theorem del1R {h : Heap} {root : Ptr} {k : C} {p s a : Nat} {l r x y : T} (z : Z h root (.right (.node y s 1 x) p 0 k) (.node l a 2 r)) :
    ∃ h' root', deleteStep h root (some a) (some p) = some (h', root', some a) ∧ Z h' root' (.right x p 1 (.right y s 0 k)) (.node l a 2 r) ∧
      Same h h' (C.plug (.right (.node y s 1 x) p 0 k) (.node l a 2 r)).keys := by
  have zp := Z.upR.mp z
  obtain ⟨h1, root1, e1, z1, f1⟩ := rightRotate_spec zp
  obtain ⟨h2, e2, z2, f2⟩ := (Z.upR.mpr z1).setRed 1
  obtain ⟨h3, e3, z3, f3⟩ := (Z.upR.mp z2).setRed 0
  refine ⟨h3, root1, ?_, Z.upR.mpr (Z.upR.mpr z3), ?_⟩
  · have dp := zp.deref
    have ds := (Z.upL.mpr zp).deref
    have hn := z.nodup
    have hne : s ≠ a := by
      rintro rfl
      simp only [C.pre, C.post, T.keys, List.nodup_append, List.nodup_cons, List.mem_append, List.mem_cons] at hn
      grind
    simp only [T.ptr_node] at dp ds e1 e2 e3
    simp [deleteStep, dp, ds, e1, e2, e3, hne]
  · intro b hb
    have t1 := f1 b (by simpa [C.keys_plug, C.pre, C.post, T.keys] using hb)
    simp only [C.keys_plug, C.pre, C.post, T.keys, List.mem_append, List.mem_cons, not_or] at hb
    rw [f3 b (by grind), f2 b (by grind), t1]

/-- Black sibling, red far nephew, node on the right. -/
theorem del2R {h : Heap} {root : Ptr} {k : C} {p s a q pc : Nat} {l r x y w : T}
    (z : Z h root (.right (.node (.node w q 1 y) s 0 x) p pc k) (.node l a 2 r)) :
    ∃ h' root', deleteStep h root (some a) (some p) = some (h', root', some p) ∧ Z h' root' (.right (.node w q 0 y) s pc k) (.node x p 0 (.node l a 0 r)) ∧
      Same h h' (C.plug (.right (.node (.node w q 1 y) s 0 x) p pc k) (.node l a 2 r)).keys := by
  have zp := Z.upR.mp z
  obtain ⟨h1, root1, e1, z1, f1⟩ := rightRotate_spec zp
  obtain ⟨h2, e2, z2, f2⟩ := z1.setRed pc
  obtain ⟨h3, e3, z3, f3⟩ := (Z.upR.mpr z2).setRed 0
  obtain ⟨h4, e4, z4, f4⟩ := (Z.upL.mpr (Z.upR.mp z3)).setRed 0
  obtain ⟨h5, e5, z5, f5⟩ := (Z.upR.mpr (Z.upR.mpr (Z.upL.mp z4))).setRed 0
  refine ⟨h5, root1, ?_, Z.upR.mp z5, ?_⟩
  · have dp := zp.deref
    have ds := (Z.upL.mpr zp).deref
    have dq := (Z.upL.mpr (Z.upL.mpr zp)).deref
    have dp1 := (Z.upR.mpr z1).deref
    have ds3 := (Z.upR.mp z3).deref
    obtain ⟨b, eb, hb⟩ := (Z.upR.mpr (Z.upL.mpr zp)).isRed
    obtain ⟨b', eb', hb'⟩ := (Z.upL.mpr (Z.upL.mpr zp)).isRed
    have : b' = true := by
      cases b' with
      | true => rfl
      | false => exact absurd (hb'.mp rfl) (by simp [T.black])
    subst this
    have hn := z.nodup
    have hne : s ≠ a := by
      rintro rfl
      simp only [C.pre, C.post, T.keys, List.nodup_append, List.nodup_cons, List.mem_append, List.mem_cons] at hn
      grind
    simp only [T.ptr_node] at dp ds dq dp1 ds3 e1 e2 e3 e4 e5 eb eb'
    simp [deleteStep, dp, ds, dq, dp1, ds3, e1, e2, e3, e4, e5, eb, eb', hne]
  · intro b hb
    have t1 := f1 b (by simpa [C.keys_plug, C.pre, C.post, T.keys] using hb)
    simp only [C.keys_plug, C.pre, C.post, T.keys, List.mem_append, List.mem_cons, not_or] at hb
    rw [f5 b (by grind), f4 b (by grind), f3 b (by grind), f2 b (by grind), t1]

/-- Black sibling, only the near nephew is red, node on the right. -/
theorem del3R {h : Heap} {root : Ptr} {k : C} {p s a q pc : Nat} {l r x y w : T}
    (z : Z h root (.right (.node w s 0 (.node y q 1 x)) p pc k) (.node l a 2 r)) (hw : w.black) :
    ∃ h' root', deleteStep h root (some a) (some p) = some (h', root', some a) ∧ Z h' root' (.right (.node (.node w s 1 y) q 0 x) p pc k) (.node l a 2 r) ∧
      Same h h' (C.plug (.right (.node w s 0 (.node y q 1 x)) p pc k) (.node l a 2 r)).keys := by
  have zp := Z.upR.mp z
  have zs := Z.upL.mpr zp
  obtain ⟨h1, e1, z1, f1⟩ := (Z.upR.mpr zs).setRed 0
  obtain ⟨h2, e2, z2, f2⟩ := (Z.upR.mp z1).setRed 1
  obtain ⟨h3, root3, e3, z3, f3⟩ := leftRotate_spec z2
  refine ⟨h3, root3, ?_, Z.upR.mpr (Z.upL.mp z3), ?_⟩
  · have dp := zp.deref
    have ds := zs.deref
    obtain ⟨b, eb, hb⟩ := (Z.upR.mpr zs).isRed
    obtain ⟨b', eb', hb'⟩ := (Z.upL.mpr zs).isRed
    have := hb'.mpr hw
    subst this
    have : b = true := by
      cases b with
      | true => rfl
      | false => exact absurd (hb.mp rfl) (by simp [T.black])
    subst this
    have hn := z.nodup
    have hne : s ≠ a := by
      rintro rfl
      simp only [C.pre, C.post, T.keys, List.nodup_append, List.nodup_cons, List.mem_append, List.mem_cons] at hn
      grind
    simp only [T.ptr_node] at dp ds e1 e2 e3 eb eb'
    simp [deleteStep, dp, ds, e1, e2, e3, eb, eb', hne]
  · intro b hb
    have t1 := f3 b (by simpa [C.keys_plug, C.pre, C.post, T.keys] using hb)
    simp only [C.keys_plug, C.pre, C.post, T.keys, List.mem_append, List.mem_cons, not_or] at hb
    rw [t1, f2 b (by grind), f1 b (by grind)]

/-- Black sibling, no red nephew, node on the right. -/
theorem del4R {h : Heap} {root : Ptr} {k : C} {p s a pc : Nat} {l r x w : T}
    (z : Z h root (.right (.node w s 0 x) p pc k) (.node l a 2 r)) (hx : x.black) (hw : w.black) :
    ∃ h', deleteStep h root (some a) (some p) = some (h', root, some p) ∧ Z h' root k (.node (.node w s 1 x) p (if pc ≠ 0 then 0 else 2) (.node l a 0 r)) ∧
      Same h h' (C.plug (.right (.node w s 0 x) p pc k) (.node l a 2 r)).keys := by
  have zp := Z.upR.mp z
  obtain ⟨h1, e1, z1, f1⟩ := zp.setRed (if pc ≠ 0 then 0 else 2)
  obtain ⟨h2, e2, z2, f2⟩ := (Z.upR.mpr z1).setRed 0
  obtain ⟨h3, e3, z3, f3⟩ := (Z.upL.mpr (Z.upR.mp z2)).setRed 1
  refine ⟨h3, ?_, Z.upL.mp z3, ?_⟩
  · have dp := zp.deref
    have ds := (Z.upL.mpr zp).deref
    obtain ⟨b, eb, hb⟩ := (Z.upR.mpr (Z.upL.mpr zp)).isRed
    obtain ⟨b', eb', hb'⟩ := (Z.upL.mpr (Z.upL.mpr zp)).isRed
    have := hb'.mpr hw
    subst this
    have := hb.mpr hx
    subst this
    have hn := z.nodup
    have hne : s ≠ a := by
      rintro rfl
      simp only [C.pre, C.post, T.keys, List.nodup_append, List.nodup_cons, List.mem_append, List.mem_cons] at hn
      grind
    simp only [ne_eq, ite_not] at e1 e2 e3
    simp only [T.ptr_node] at dp ds e1 e2 e3 eb eb'
    simp [deleteStep, dp, ds, e1, e2, e3, eb, eb', hne]
  · intro b hb
    simp only [C.keys_plug, C.pre, C.post, T.keys, List.mem_append, List.mem_cons, not_or] at hb
    rw [f3 b (by grind), f2 b (by grind), f1 b (by grind)]

end Verif.Rb
