import Verif.Rb.Delete

/-!
The loop of `kos_red_black_delete` restores balance.
-/
namespace Verif.Rb

/-- The second tree is the first one without the dummy leaf `lf`. -/
inductive Hole (lf : Nat) : T → T → Prop where
  | leaf : Hole lf (.node .nil lf 0 .nil) .nil
  | left {l l' r : T} {a c : Nat} : Hole lf l l' → Hole lf (.node l a c r) (.node l' a c r)
  | right {l r r' : T} {a c : Nat} : Hole lf r r' → Hole lf (.node l a c r) (.node l a c r')

theorem Hole.plug {lf : Nat} : ∀ {k : C} {t t' : T}, Hole lf t t' → Hole lf (k.plug t) (k.plug t') := by
  intro k
  induction k with
  | top => intro t t' h; exact h
  | left k a c r ih => intro t t' h; exact ih (.left h)
  | right l a c k ih => intro t t' h; exact ih (.right h)

/-- The loop ends in a tree which is balanced once the dummy leaf is removed. -/
def Done (lf : Nat) (h : Heap) (root node : Ptr) (fuel : Nat) (W : List Nat) : Prop :=
  ∃ h' root' U U' m, deleteLoop fuel h root node = some (h', root') ∧ Z h' root' .top U ∧ Hole lf U U' ∧ Bal U' m ∧ U'.black ∧
    U.keys = W ∧ Same h h' W

theorem Done.step {lf : Nat} {h h' : Heap} {root root' node node' : Ptr} {f f' : Nat} {W W' : List Nat} (d : Done lf h' root' node' f W)
    (e : deleteLoop f' h root node = deleteLoop f h' root' node') (hs : Same h h' W') (hw : W = W') : Done lf h root node f' W' := by
  subst hw
  obtain ⟨h2, root2, U, U', m, e2, z, hH, hb, hbl, hk, hs2⟩ := d
  exact ⟨h2, root2, U, U', m, e.trans e2, z, hH, hb, hbl, hk, hs.trans hs2⟩

theorem deleteLoop_stop {h : Heap} {root : Ptr} {k : C} {l r : T} {a c f : Nat} (z : Z h root k (.node l a c r)) (hc : c ≠ 2) :
    deleteLoop (f + 1) h root (some a) = some (h, root) := by
  have d := z.deref
  simp [deleteLoop, d, hc]

theorem deleteLoop_stepL {h h' : Heap} {root root' node' : Ptr} {k : C} {l r s : T} {a p pc : Nat} (z : Z h root (.left k p pc s) (.node l a 2 r))
    (hs : deleteStep h root (some a) (some p) = some (h', root', node')) (f : Nat) :
    deleteLoop (f + 1) h root (some a) = deleteLoop f h' root' node' := by
  have d := z.deref
  simp [deleteLoop, d, hs]

/-- A red far nephew: the next step is the last one. -/
theorem loop2L {lf : Nat} {h : Heap} {root : Ptr} {k : C} {p s a q pc n : Nat} {l r x y w t' : T}
    (z : Z h root (.left k p pc (.node x s 0 (.node y q 1 w))) (.node l a 2 r)) (hk : CBal (.left k p pc (.node x s 0 (.node y q 1 w))) (n + 1))
    (ht : Hole lf (.node l a 0 r) t') (hb : Bal t' n) (fuel : Nat) (hf : 2 ≤ fuel) :
    Done lf h root (some a) fuel (C.plug (.left k p pc (.node x s 0 (.node y q 1 w))) (.node l a 2 r)).keys := by
  obtain ⟨h', root', e, z', hs⟩ := del2L z
  obtain ⟨f, rfl⟩ : ∃ f, fuel = f + 2 := ⟨fuel - 2, by omega⟩
  have hH : Hole lf (.node (.node l a 0 r) p 0 x) (.node t' p 0 x) := .left ht
  obtain ⟨hbal, hcol⟩ := hk
  have hb2 : Bal x n ∧ Bal (.node y q 1 w) n := by
    rcases hbal with ⟨_, m, hm, u, v⟩ | ⟨c, _⟩
    · obtain rfl : m = n := by omega
      exact ⟨by assumption, by assumption⟩
    · exact absurd c (by omega)
  have hq : Bal y n ∧ Bal w n := by
    rcases hb2.2 with ⟨c, _⟩ | ⟨_, _, _, u, v⟩
    · exact absurd c (by omega)
    · exact ⟨by assumption, by assumption⟩
  have b1 : Bal (.node t' p 0 x) (n + 1) := (.blk hb hb2.1)
  have b2 : Bal (.node y q 0 w) (n + 1) := (.blk hq.1 hq.2)
  have hcb : CBal (.left k s pc (.node y q 0 w)) (n + 1) := by
    refine ⟨b2, ?_⟩
    rcases hcol with ⟨rfl, c⟩ | ⟨rfl, _, c⟩
    · exact Or.inl ⟨rfl, c⟩
    · exact Or.inr ⟨rfl, rfl, c⟩
  obtain ⟨m, hm, hm'⟩ := Bal.plug hcb b1 (fun _ => rfl) (fun _ => rfl)
  refine ⟨h', root', _, _, m, ?_, Z.down.mp z', hH.plug, hm, hm', ?_, hs⟩
  · rw [deleteLoop_stepL z e, deleteLoop_stop z' (by omega)]
  · simp [C.keys_plug, C.pre, C.post, T.keys]

theorem loop3L {lf : Nat} {h : Heap} {root : Ptr} {k : C} {p s a q pc n : Nat} {l r x y w t' : T}
    (z : Z h root (.left k p pc (.node (.node x q 1 y) s 0 w)) (.node l a 2 r)) (hk : CBal (.left k p pc (.node (.node x q 1 y) s 0 w)) (n + 1))
    (hw : w.black) (ht : Hole lf (.node l a 0 r) t') (hb : Bal t' n) (fuel : Nat) (hf : 3 ≤ fuel) :
    Done lf h root (some a) fuel (C.plug (.left k p pc (.node (.node x q 1 y) s 0 w)) (.node l a 2 r)).keys := by
  obtain ⟨h', root', e, z', hs⟩ := del3L z hw
  obtain ⟨f, rfl⟩ : ∃ f, fuel = f + 1 := ⟨fuel - 1, by omega⟩
  obtain ⟨hbal, hcol⟩ := hk
  have hb2 : Bal (.node x q 1 y) n ∧ Bal w n := by
    rcases hbal with ⟨_, m, hm, u, v⟩ | ⟨c, _⟩
    · obtain rfl : m = n := by omega
      exact ⟨by assumption, by assumption⟩
    · exact absurd c (by omega)
  have hq : x.black ∧ y.black ∧ Bal x n ∧ Bal y n := by
    rcases hb2.1 with ⟨c, _⟩ | ⟨_, _, _, u, v⟩
    · exact absurd c (by omega)
    · exact ⟨by assumption, by assumption, by assumption, by assumption⟩
  have b2 : Bal (.node y s 1 w) n := (.red hq.2.2.2 hb2.2 hq.2.1 hw)
  have b3 : Bal (.node x q 0 (.node y s 1 w)) (n + 1) := (.blk hq.2.2.1 b2)
  have hcb : CBal (.left k p pc (.node x q 0 (.node y s 1 w))) (n + 1) := by
    refine ⟨b3, ?_⟩
    rcases hcol with ⟨rfl, c⟩ | ⟨rfl, _, c⟩
    · exact Or.inl ⟨rfl, c⟩
    · exact Or.inr ⟨rfl, rfl, c⟩
  have := loop2L z' hcb ht hb f (by omega)
  refine this.step (deleteLoop_stepL z e f) hs ?_
  simp [C.keys_plug, C.pre, C.post, T.keys]

/-- No red nephew, red parent. -/
theorem loop4L {lf : Nat} {h : Heap} {root : Ptr} {k : C} {p s a n : Nat} {l r x w t' : T}
    (z : Z h root (.left k p 1 (.node x s 0 w)) (.node l a 2 r)) (hk : CBal (.left k p 1 (.node x s 0 w)) (n + 1))
    (hx : x.black) (hw : w.black) (ht : Hole lf (.node l a 0 r) t') (hb : Bal t' n) (fuel : Nat) (hf : 2 ≤ fuel) :
    Done lf h root (some a) fuel (C.plug (.left k p 1 (.node x s 0 w)) (.node l a 2 r)).keys := by
  obtain ⟨h', e, z', hs⟩ := del4L z hx hw
  obtain ⟨f, rfl⟩ : ∃ f, fuel = f + 2 := ⟨fuel - 2, by omega⟩
  rw [if_pos (by omega)] at z'
  have hH : Hole lf (.node (.node l a 0 r) p 0 (.node x s 1 w)) (.node t' p 0 (.node x s 1 w)) := .left ht
  obtain ⟨hbal, hcol⟩ := hk
  have hb2 : Bal x n ∧ Bal w n := by
    rcases hbal with ⟨_, m, hm, u, v⟩ | ⟨c, _⟩
    · obtain rfl : m = n := by omega
      exact ⟨by assumption, by assumption⟩
    · exact absurd c (by omega)
  have b1 : Bal (.node x s 1 w) n := (.red hb2.1 hb2.2 hx hw)
  have b2 : Bal (.node t' p 0 (.node x s 1 w)) (n + 1) := (.blk hb b1)
  have hcb : CBal k (n + 1) := by
    rcases hcol with ⟨c, _⟩ | ⟨_, _, _, _, c⟩
    · exact absurd c (by omega)
    · exact c
  obtain ⟨m, hm, hm'⟩ := Bal.plug hcb b2 (fun _ => rfl) (fun _ => rfl)
  refine ⟨h', root, _, _, m, ?_, Z.down.mp z', hH.plug, hm, hm', ?_, hs⟩
  · rw [deleteLoop_stepL z e, deleteLoop_stop z' (by omega)]
  · simp [C.keys_plug, C.pre, C.post, T.keys]

theorem deleteLoop_stepR {h h' : Heap} {root root' node' : Ptr} {k : C} {l r s : T} {a p pc : Nat} (z : Z h root (.right s p pc k) (.node l a 2 r))
    (hs : deleteStep h root (some a) (some p) = some (h', root', node')) (f : Nat) :
    deleteLoop (f + 1) h root (some a) = deleteLoop f h' root' node' := by
  have d := z.deref
  simp [deleteLoop, d, hs]

/-- A red far nephew: the next step is the last one. -/
theorem loop2R {lf : Nat} {h : Heap} {root : Ptr} {k : C} {p s a q pc n : Nat} {l r x y w t' : T}
    (z : Z h root (.right (.node (.node w q 1 y) s 0 x) p pc k) (.node l a 2 r)) (hk : CBal (.right (.node (.node w q 1 y) s 0 x) p pc k) (n + 1))
    (ht : Hole lf (.node l a 0 r) t') (hb : Bal t' n) (fuel : Nat) (hf : 2 ≤ fuel) :
    Done lf h root (some a) fuel (C.plug (.right (.node (.node w q 1 y) s 0 x) p pc k) (.node l a 2 r)).keys := by
  obtain ⟨h', root', e, z', hs⟩ := del2R z
  obtain ⟨f, rfl⟩ : ∃ f, fuel = f + 2 := ⟨fuel - 2, by omega⟩
  have hH : Hole lf (.node x p 0 (.node l a 0 r)) (.node x p 0 t') := .right ht
  obtain ⟨hbal, hcol⟩ := hk
  have hb2 : Bal x n ∧ Bal (.node w q 1 y) n := by
    rcases hbal with ⟨_, m, hm, u, v⟩ | ⟨c, _⟩
    · obtain rfl : m = n := by omega
      exact ⟨by assumption, by assumption⟩
    · exact absurd c (by omega)
  have hq : Bal y n ∧ Bal w n := by
    rcases hb2.2 with ⟨c, _⟩ | ⟨_, _, _, u, v⟩
    · exact absurd c (by omega)
    · exact ⟨by assumption, by assumption⟩
  have b1 : Bal (.node x p 0 t') (n + 1) := (.blk hb2.1 hb)
  have b2 : Bal (.node w q 0 y) (n + 1) := (.blk hq.2 hq.1)
  have hcb : CBal (.right (.node w q 0 y) s pc k) (n + 1) := by
    refine ⟨b2, ?_⟩
    rcases hcol with ⟨rfl, c⟩ | ⟨rfl, _, c⟩
    · exact Or.inl ⟨rfl, c⟩
    · exact Or.inr ⟨rfl, rfl, c⟩
  obtain ⟨m, hm, hm'⟩ := Bal.plug hcb b1 (fun _ => rfl) (fun _ => rfl)
  refine ⟨h', root', _, _, m, ?_, Z.down.mp z', hH.plug, hm, hm', ?_, hs⟩
  · rw [deleteLoop_stepR z e, deleteLoop_stop z' (by omega)]
  · simp [C.keys_plug, C.pre, C.post, T.keys]

theorem loop3R {lf : Nat} {h : Heap} {root : Ptr} {k : C} {p s a q pc n : Nat} {l r x y w t' : T}
    (z : Z h root (.right (.node w s 0 (.node y q 1 x)) p pc k) (.node l a 2 r)) (hk : CBal (.right (.node w s 0 (.node y q 1 x)) p pc k) (n + 1))
    (hw : w.black) (ht : Hole lf (.node l a 0 r) t') (hb : Bal t' n) (fuel : Nat) (hf : 3 ≤ fuel) :
    Done lf h root (some a) fuel (C.plug (.right (.node w s 0 (.node y q 1 x)) p pc k) (.node l a 2 r)).keys := by
  obtain ⟨h', root', e, z', hs⟩ := del3R z hw
  obtain ⟨f, rfl⟩ : ∃ f, fuel = f + 1 := ⟨fuel - 1, by omega⟩
  obtain ⟨hbal, hcol⟩ := hk
  have hb2 : Bal (.node y q 1 x) n ∧ Bal w n := by
    rcases hbal with ⟨_, m, hm, u, v⟩ | ⟨c, _⟩
    · obtain rfl : m = n := by omega
      exact ⟨by assumption, by assumption⟩
    · exact absurd c (by omega)
  have hq : x.black ∧ y.black ∧ Bal x n ∧ Bal y n := by
    rcases hb2.1 with ⟨c, _⟩ | ⟨_, _, _, u, v⟩
    · exact absurd c (by omega)
    · exact ⟨by assumption, by assumption, by assumption, by assumption⟩
  have b2 : Bal (.node w s 1 y) n := (.red hb2.2 hq.2.2.2 hw hq.2.1)
  have b3 : Bal (.node (.node w s 1 y) q 0 x) (n + 1) := (.blk b2 hq.2.2.1)
  have hcb : CBal (.right (.node (.node w s 1 y) q 0 x) p pc k) (n + 1) := by
    refine ⟨b3, ?_⟩
    rcases hcol with ⟨rfl, c⟩ | ⟨rfl, _, c⟩
    · exact Or.inl ⟨rfl, c⟩
    · exact Or.inr ⟨rfl, rfl, c⟩
  have := loop2R z' hcb ht hb f (by omega)
  refine this.step (deleteLoop_stepR z e f) hs ?_
  simp [C.keys_plug, C.pre, C.post, T.keys]

/-- No red nephew, red parent. -/
theorem loop4R {lf : Nat} {h : Heap} {root : Ptr} {k : C} {p s a n : Nat} {l r x w t' : T}
    (z : Z h root (.right (.node w s 0 x) p 1 k) (.node l a 2 r)) (hk : CBal (.right (.node w s 0 x) p 1 k) (n + 1))
    (hx : x.black) (hw : w.black) (ht : Hole lf (.node l a 0 r) t') (hb : Bal t' n) (fuel : Nat) (hf : 2 ≤ fuel) :
    Done lf h root (some a) fuel (C.plug (.right (.node w s 0 x) p 1 k) (.node l a 2 r)).keys := by
  obtain ⟨h', e, z', hs⟩ := del4R z hx hw
  obtain ⟨f, rfl⟩ : ∃ f, fuel = f + 2 := ⟨fuel - 2, by omega⟩
  rw [if_pos (by omega)] at z'
  have hH : Hole lf (.node (.node w s 1 x) p 0 (.node l a 0 r)) (.node (.node w s 1 x) p 0 t') := .right ht
  obtain ⟨hbal, hcol⟩ := hk
  have hb2 : Bal x n ∧ Bal w n := by
    rcases hbal with ⟨_, m, hm, u, v⟩ | ⟨c, _⟩
    · obtain rfl : m = n := by omega
      exact ⟨by assumption, by assumption⟩
    · exact absurd c (by omega)
  have b1 : Bal (.node w s 1 x) n := (.red hb2.2 hb2.1 hw hx)
  have b2 : Bal (.node (.node w s 1 x) p 0 t') (n + 1) := (.blk b1 hb)
  have hcb : CBal k (n + 1) := by
    rcases hcol with ⟨c, _⟩ | ⟨_, _, _, _, c⟩
    · exact absurd c (by omega)
    · exact c
  obtain ⟨m, hm, hm'⟩ := Bal.plug hcb b2 (fun _ => rfl) (fun _ => rfl)
  refine ⟨h', root, _, _, m, ?_, Z.down.mp z', hH.plug, hm, hm', ?_, hs⟩
  · rw [deleteLoop_stepR z e, deleteLoop_stop z' (by omega)]
  · simp [C.keys_plug, C.pre, C.post, T.keys]

theorem deleteLoop_spec {lf : Nat} : ∀ (fuel : Nat) (h : Heap) (root : Ptr) (k : C) (l r : T) (a n : Nat) (t' : T), Z h root k (.node l a 2 r) →
    CBal k (n + 1) → Hole lf (.node l a 0 r) t' → Bal t' n → t'.black → k.depth + 5 ≤ fuel →
    Done lf h root (some a) fuel (k.plug (.node l a 2 r)).keys := by
  intro fuel
  induction fuel using Nat.strongRecOn with
  | ind fuel ih =>
  intro h root k l r a n t' z hk ht hb hbl hf
  obtain ⟨f, rfl⟩ : ∃ f, fuel = f + 1 := ⟨fuel - 1, by omega⟩
  cases k with
  | top =>
    obtain ⟨h', e, z', f'⟩ := z.setRed 0
    refine ⟨h', root, _, _, n, ?_, z', ht, hb, hbl, rfl, fun b hb => f' b ?_⟩
    · have d := z.deref
      simp [deleteLoop, d, e]
    · rintro rfl; simp [C.plug, T.keys] at hb
  | left k p pc u =>
    obtain ⟨hbal, hcol⟩ := hk
    cases u with
    | nil => exact absurd hbal (by simp [Bal])
    | node x s sc w =>
    rcases hbal with ⟨rfl, m, hm, hx, hw⟩ | ⟨rfl, bx, bw, hx, hw⟩
    · obtain rfl : m = n := by omega
      have hbal : Bal (.node x s 0 w) (m + 1) := (.blk hx hw)
      rcases hw.cases with bw | ⟨wl, q, wr, rfl, _⟩
      · rcases hx.cases with bx | ⟨xl, q, xr, rfl, _⟩
        · rcases hcol with ⟨rfl, hc⟩ | ⟨rfl, hc⟩
          · obtain ⟨h', e, z', hs⟩ := del4L z bx bw
            rw [if_neg (by omega)] at z'
            have hH : Hole lf (.node (.node l a 0 r) p 0 (.node x s 1 w)) (.node t' p 0 (.node x s 1 w)) := .left ht
            have b1 : Bal (.node x s 1 w) m := (.red hx hw bx bw)
            have b2 : Bal (.node t' p 0 (.node x s 1 w)) (m + 1) := (.blk hb b1)
            have := ih f (by omega) _ _ k _ _ p (m + 1) _ z' hc hH b2 rfl (by simp only [C.depth] at hf; omega)
            refine this.step (deleteLoop_stepL z e f) hs ?_
            simp [C.keys_plug, C.pre, C.post, T.keys]
          · exact loop4L z ⟨hbal, Or.inr ⟨rfl, hc⟩⟩ bx bw ht hb _ (by omega)
        · exact loop3L z ⟨hbal, hcol⟩ bw ht hb _ (by omega)
      · exact loop2L z ⟨hbal, hcol⟩ ht hb _ (by omega)
    · have hpc : pc = 0 ∧ CBal k (n + 2) := by
        rcases hcol with c | ⟨_, c, _⟩
        · exact c
        · exact absurd c (by simp [T.black])
      obtain ⟨rfl, hc⟩ := hpc
      obtain ⟨h', root', e, z', hs⟩ := del1L z
      have hk' : CBal (.left (.left k s 0 w) p 1 x) (n + 1) :=
        ⟨hx, Or.inr ⟨rfl, bx, by simp [C.parRed], fun c => C.noConfusion c, hw, Or.inl ⟨rfl, hc⟩⟩⟩
      refine Done.step (W := (C.plug (.left (.left k s 0 w) p 1 x) (.node l a 2 r)).keys) ?_ (deleteLoop_stepL z e f) hs (by simp [C.keys_plug, C.pre, C.post, T.keys])
      obtain ⟨hk1, hk2⟩ := hk'
      cases x with
      | nil => exact absurd hx (by simp [Bal])
      | node y v vc w2 =>
      obtain rfl : vc = 0 := bx
      have hbal := hk1
      rcases hk1 with ⟨_, m, hm, hy, hw2⟩ | ⟨c, _⟩
      · obtain rfl : m = n := by omega
        rcases hw2.cases with bw2 | ⟨wl, q, wr, rfl, _⟩
        · rcases hy.cases with by2 | ⟨xl, q, xr, rfl, _⟩
          · exact loop4L z' ⟨hbal, hk2⟩ by2 bw2 ht hb _ (by omega)
          · exact loop3L z' ⟨hbal, hk2⟩ bw2 ht hb _ (by omega)
        · exact loop2L z' ⟨hbal, hk2⟩ ht hb _ (by omega)
      · exact absurd c (by omega)
  | right u p pc k =>
    obtain ⟨hbal, hcol⟩ := hk
    cases u with
    | nil => exact absurd hbal (by simp [Bal])
    | node w s sc x =>
    rcases hbal with ⟨rfl, m, hm, hw, hx⟩ | ⟨rfl, bw, bx, hw, hx⟩
    · obtain rfl : m = n := by omega
      have hbal : Bal (.node w s 0 x) (m + 1) := (.blk hw hx)
      rcases hw.cases with bw | ⟨wl, q, wr, rfl, _⟩
      · rcases hx.cases with bx | ⟨xl, q, xr, rfl, _⟩
        · rcases hcol with ⟨rfl, hc⟩ | ⟨rfl, hc⟩
          · obtain ⟨h', e, z', hs⟩ := del4R z bx bw
            rw [if_neg (by omega)] at z'
            have hH : Hole lf (.node (.node w s 1 x) p 0 (.node l a 0 r)) (.node (.node w s 1 x) p 0 t') := .right ht
            have b1 : Bal (.node w s 1 x) m := (.red hw hx bw bx)
            have b2 : Bal (.node (.node w s 1 x) p 0 t') (m + 1) := (.blk b1 hb)
            have := ih f (by omega) _ _ k _ _ p (m + 1) _ z' hc hH b2 rfl (by simp only [C.depth] at hf; omega)
            refine this.step (deleteLoop_stepR z e f) hs ?_
            simp [C.keys_plug, C.pre, C.post, T.keys]
          · exact loop4R z ⟨hbal, Or.inr ⟨rfl, hc⟩⟩ bx bw ht hb _ (by omega)
        · exact loop3R z ⟨hbal, hcol⟩ bw ht hb _ (by omega)
      · exact loop2R z ⟨hbal, hcol⟩ ht hb _ (by omega)
    · have hpc : pc = 0 ∧ CBal k (n + 2) := by
        rcases hcol with c | ⟨_, c, _⟩
        · exact c
        · exact absurd c (by simp [T.black])
      obtain ⟨rfl, hc⟩ := hpc
      obtain ⟨h', root', e, z', hs⟩ := del1R z
      have hk' : CBal (.right x p 1 (.right w s 0 k)) (n + 1) :=
        ⟨hx, Or.inr ⟨rfl, bx, by simp [C.parRed], fun c => C.noConfusion c, hw, Or.inl ⟨rfl, hc⟩⟩⟩
      refine Done.step (W := (C.plug (.right x p 1 (.right w s 0 k)) (.node l a 2 r)).keys) ?_ (deleteLoop_stepR z e f) hs (by simp [C.keys_plug, C.pre, C.post, T.keys])
      obtain ⟨hk1, hk2⟩ := hk'
      cases x with
      | nil => exact absurd hx (by simp [Bal])
      | node w2 v vc y =>
      obtain rfl : vc = 0 := bx
      have hbal := hk1
      rcases hk1 with ⟨_, m, hm, hw2, hy⟩ | ⟨c, _⟩
      · obtain rfl : m = n := by omega
        rcases hw2.cases with bw2 | ⟨wl, q, wr, rfl, _⟩
        · rcases hy.cases with by2 | ⟨xl, q, xr, rfl, _⟩
          · exact loop4R z' ⟨hbal, hk2⟩ by2 bw2 ht hb _ (by omega)
          · exact loop3R z' ⟨hbal, hk2⟩ bw2 ht hb _ (by omega)
        · exact loop2R z' ⟨hbal, hk2⟩ ht hb _ (by omega)
      · exact absurd c (by omega)

end Verif.Rb
