import Verif.Rb.DeleteSpec

/-!
Unlinking a node with at most one child, and the whole of `kos_red_black_delete`.
-/
namespace Verif.Rb

set_option linter.unusedSimpArgs false

theorem unlink1 {h : Heap} {root zp : Ptr} {z cz lf : Nat} {nl : Node} (hz : h z = some ⟨zp, none, none, cz⟩) (hlf : h lf = some nl) (hne : lf ≠ z)
    (hp : ∀ p, zp = some p → (∃ n, h p = some n) ∧ p ≠ z ∧ p ≠ lf) :
    ∃ h' root', unlink lf h root (some z) = some (h', root', some lf) ∧
      h' lf = some ⟨zp, none, none, if zp = none then 0 else if cz ≠ 0 then 0 else 2⟩ ∧
      (∀ p n, zp = some p → h p = some n → n.left = some z → h' p = some { n with left := some lf }) ∧
      (∀ p n, zp = some p → h p = some n → n.left ≠ some z → h' p = some { n with right := some lf }) ∧
      root' = (if zp = none then some lf else root) ∧ (∀ a, a ≠ lf → some a ≠ zp → h' a = h a) := by
  cases zp with
  | none =>
    refine ⟨_, _, by simp [unlink, deref, setLeft, setRight, setRed, setParent, modify, hz, hlf, hne, hne.symm]; exact ⟨rfl, rfl⟩, ?_⟩
    simp [hz, hlf, hne, hne.symm]
    try grind
  | some p =>
    obtain ⟨⟨np, hpp⟩, p1, p2⟩ := hp p rfl
    by_cases hl : np.left = some z <;> by_cases hc : cz = 0
    all_goals
      refine ⟨_, _, by simp [unlink, deref, setLeft, setRight, setRed, setParent, modify, hz, hlf, hne, hne.symm, hpp, hl, hc, p1, p2, p1.symm, p2.symm]; exact ⟨rfl, rfl⟩, ?_⟩
      simp [hz, hlf, hne, hne.symm, hpp, hl, hc, p1, p2, p1.symm, p2.symm]
      try grind

theorem unlink2 {h : Heap} {root zp zl zr xl xr xp : Ptr} {z lf x : Nat} (hz : h z = some ⟨zp, zl, zr, 0⟩)
    (hx : zl = some x ∧ zr = none ∨ zl = none ∧ zr = some x) (hxx : h x = some ⟨xp, xl, xr, 1⟩) (hne : x ≠ z) (hlx : x ≠ lf)
    (hp : ∀ p, zp = some p → (∃ n, h p = some n) ∧ p ≠ z ∧ p ≠ x) :
    ∃ h' root', unlink lf h root (some z) = some (h', root', some x) ∧
      h' x = some ⟨zp, xl, xr, if zp = none then 1 else 0⟩ ∧
      (∀ p n, zp = some p → h p = some n → n.left = some z → h' p = some { n with left := some x }) ∧
      (∀ p n, zp = some p → h p = some n → n.left ≠ some z → h' p = some { n with right := some x }) ∧
      root' = (if zp = none then some x else root) ∧ (∀ a, a ≠ x → some a ≠ zp → h' a = h a) := by
  cases zp with
  | none =>
    rcases hx with ⟨rfl, rfl⟩ | ⟨rfl, rfl⟩
    all_goals
      refine ⟨_, _, by simp [unlink, deref, setLeft, setRight, setRed, setParent, modify, hz, hxx, hlx, hne, hne.symm]; exact ⟨rfl, rfl⟩, ?_⟩
      simp [hz, hxx, hne, hne.symm]
      try grind
  | some p =>
    obtain ⟨⟨np, hpp⟩, p1, p2⟩ := hp p rfl
    rcases hx with ⟨rfl, rfl⟩ | ⟨rfl, rfl⟩ <;> by_cases hl : np.left = some z
    all_goals
      refine ⟨_, _, by simp [unlink, deref, setLeft, setRight, setRed, setParent, modify, hz, hxx, hlx, hne, hne.symm, hpp, hl, p1, p2, p1.symm, p2.symm]; exact ⟨rfl, rfl⟩, ?_⟩
      simp [hz, hxx, hne, hne.symm, hpp, hl, p1, p2, p1.symm, p2.symm]
      try grind

/-- Another subtree takes the place of a subtree. -/
theorem Z.replace {h h' : Heap} {root root' : Ptr} {k : C} {t X : T} {z : Nat} (zz : Z h root k t) (htz : t.ptr = some z) (hX : Sub h' k.par X)
    (hnd : (k.pre ++ X.keys ++ k.post).Nodup)
    (e1 : ∀ p n, k.par = some p → h p = some n → n.left = some z → h' p = some { n with left := X.ptr })
    (e2 : ∀ p n, k.par = some p → h p = some n → n.left ≠ some z → h' p = some { n with right := X.ptr })
    (e3 : root' = (if k.par = none then X.ptr else root)) (e4 : ∀ a ∈ k.pre ++ k.post, some a ≠ k.par → h' a = h a) :
    Z h' root' k X := by
  have h1 : (k.pre ++ k.post).Nodup := by
    simp only [List.nodup_append, List.mem_append] at hnd ⊢; grind
  refine ⟨hX, ?_, hnd⟩
  have hcs := zz.csub
  have hn := zz.nodup
  have hzt := ptr_mem htz
  cases k with
  | top => simp [CSub, e3]
  | left k1 p c1 r =>
    simp only [C.par_left, reduceCtorEq, if_false] at e3
    rw [e3]
    refine hcs.rechild h1 (fun c => C.noConfusion c) e4 ?_ (by rintro _ _ _ _ ⟨⟩)
    rintro _ _ _ _ ⟨⟩
    exact e1 p _ rfl hcs.1 htz
  | right l p c1 k1 =>
    simp only [C.par_right, reduceCtorEq, if_false] at e3
    rw [e3]
    refine hcs.rechild h1 (fun c => C.noConfusion c) e4 (by rintro _ _ _ _ ⟨⟩) ?_
    rintro _ _ _ _ ⟨⟩
    refine e2 p _ rfl hcs.1 ?_
    intro e
    have := ptr_mem e
    simp only [C.pre, C.post, List.nodup_append, List.mem_append] at hn
    grind

/-- Nodes on the path exist and are not in the subtree. -/
theorem Z.above {h : Heap} {root : Ptr} {k : C} {t : T} (z : Z h root k t) {p : Nat} (hp : k.par = some p) :
    (∃ n, h p = some n) ∧ p ∉ t.keys := by
  constructor
  · have hcs := z.csub
    cases k with
    | top => cases hp
    | left k p' pc u => cases hp; exact ⟨_, hcs.1⟩
    | right u p' pc k => cases hp; exact ⟨_, hcs.1⟩
  · have := par_mem hp
    have hn := z.nodup
    simp only [List.nodup_append, List.mem_append] at hn this
    grind

theorem unlink_leaf {h : Heap} {root : Ptr} {k : C} {z cz lf : Nat} {nl : Node} (zz : Z h root k (.node .nil z cz .nil)) (hlf : h lf = some nl)
    (hl : lf ∉ (k.plug (.node .nil z cz .nil)).keys) :
    ∃ h' root', unlink lf h root (some z) = some (h', root', some lf) ∧
      Z h' root' k (.node .nil lf (if k.par = none then 0 else if cz ≠ 0 then 0 else 2) .nil) ∧ Same h h' (lf :: (k.plug (.node .nil z cz .nil)).keys) := by
  simp only [C.keys_plug, T.keys, List.nil_append, List.mem_append, List.mem_singleton, not_or] at hl
  obtain ⟨h', root', e, e1, e2, e3, e4, e5⟩ := unlink1 (root := root) zz.sub.1 hlf hl.1.2 (fun p hp => by
    obtain ⟨a1, a2⟩ := zz.above hp
    refine ⟨a1, ?_, ?_⟩
    · rintro rfl; exact a2 (by simp [T.keys])
    · rintro rfl
      have := par_mem hp
      simp only [List.mem_append] at this
      rcases this with c | c
      · exact hl.1.1 c
      · exact hl.2 c)
  refine ⟨h', root', e, zz.replace rfl ⟨e1, trivial, trivial⟩ ?_ e2 e3 e4 ?_, ?_⟩
  · have hn := zz.nodup
    simp only [T.keys, List.nil_append, List.nodup_append, List.nodup_cons, List.mem_append, List.mem_cons, List.not_mem_nil] at hn ⊢
    grind
  · intro a ha hne
    refine e5 a ?_ hne
    rintro rfl
    simp only [List.mem_append] at ha
    rcases ha with c | c
    · exact hl.1.1 c
    · exact hl.2 c
  · intro b hb
    simp only [C.keys_plug, T.keys, List.nil_append, List.mem_append, List.mem_singleton, List.mem_cons, not_or] at hb
    refine e5 b hb.1 ?_
    intro c
    have := par_mem c.symm
    simp only [List.mem_append] at this
    rcases this with c | c
    · exact hb.2.1.1 c
    · exact hb.2.2 c

theorem unlink_child {h : Heap} {root : Ptr} {k : C} {L R : T} {z x lf : Nat} (zz : Z h root k (.node L z 0 R))
    (hx : L = .node .nil x 1 .nil ∧ R = .nil ∨ L = .nil ∧ R = .node .nil x 1 .nil)
    (hl : lf ∉ (k.plug (.node L z 0 R)).keys) :
    ∃ h' root', unlink lf h root (some z) = some (h', root', some x) ∧
      Z h' root' k (.node .nil x (if k.par = none then 1 else 0) .nil) ∧ Same h h' (k.plug (.node L z 0 R)).keys := by
  have hk : (T.node L z 0 R).keys = [x, z] ∨ (T.node L z 0 R).keys = [z, x] := by
    rcases hx with ⟨rfl, rfl⟩ | ⟨rfl, rfl⟩ <;> simp [T.keys]
  have hmem : ∀ b, b ∈ (T.node L z 0 R).keys ↔ b = x ∨ b = z := by
    intro b; rcases hk with e | e <;> rw [e] <;> simp [or_comm]
  have hn := zz.nodup
  have hd : x ≠ z := by
    simp only [List.nodup_append] at hn
    rintro rfl
    rcases hk with e | e <;> rw [e] at hn <;> simp at hn
  have hnd : (k.pre ++ [x] ++ k.post).Nodup := by
    rcases hk with e | e <;> rw [e] at hn <;>
      simp only [List.nodup_append, List.nodup_cons, List.mem_append, List.mem_cons, List.not_mem_nil] at hn ⊢ <;> grind
  have hxx : ∃ xp, h x = some ⟨xp, none, none, 1⟩ := by
    rcases hx with ⟨rfl, rfl⟩ | ⟨rfl, rfl⟩
    · exact ⟨_, zz.sub.2.1.1⟩
    · exact ⟨_, zz.sub.2.2.1⟩
  obtain ⟨xp, hxx⟩ := hxx
  rw [C.keys_plug] at hl
  simp only [List.mem_append, not_or, hmem] at hl
  obtain ⟨h', root', e, e1, e2, e3, e4, e5⟩ := unlink2 (root := root) (lf := lf) zz.sub.1
    (by rcases hx with ⟨rfl, rfl⟩ | ⟨rfl, rfl⟩ <;> simp) hxx hd (fun e => hl.1.2.1 e.symm) (fun p hp => by
      obtain ⟨a1, a2⟩ := zz.above hp
      rw [hmem] at a2
      exact ⟨a1, fun e => a2 (Or.inr e), fun e => a2 (Or.inl e)⟩)
  refine ⟨h', root', e, zz.replace rfl ⟨e1, trivial, trivial⟩ (by simpa [T.keys] using hnd) e2 e3 e4 ?_, ?_⟩
  · intro a ha hne
    refine e5 a ?_ hne
    rintro rfl
    simp only [List.nodup_append, List.mem_append, List.mem_singleton] at hnd ha
    grind
  · intro b hb
    rw [C.keys_plug] at hb
    simp only [List.mem_append, not_or, hmem] at hb
    refine e5 b hb.1.2.1 ?_
    intro c
    have := par_mem c.symm
    simp only [List.mem_append] at this
    rcases this with c | c
    · exact hb.1.1 c
    · exact hb.2 c

theorem Hole.path {lf : Nat} {t t' : T} (hh : Hole lf t t') : ∃ k : C, t = k.plug (.node .nil lf 0 .nil) ∧ t' = k.plug .nil := by
  induction hh with
  | leaf => exact ⟨.top, rfl, rfl⟩
  | @left l l' r a c _ ih =>
    obtain ⟨k, rfl, rfl⟩ := ih
    exact ⟨(C.left .top a c r).app k, by rw [C.plug_app]; rfl, by rw [C.plug_app]; rfl⟩
  | @right l r r' a c _ ih =>
    obtain ⟨k, rfl, rfl⟩ := ih
    exact ⟨(C.right l a c .top).app k, by rw [C.plug_app]; rfl, by rw [C.plug_app]; rfl⟩

/-- Writing the colour of a black root changes nothing. -/
theorem blacken {h : Heap} {root : Ptr} {t : T} (z : Z h root .top t) (hb : t.black) :
    (if root.isSome then setRed h root 0 else pure h) = some h ∧ (root = none ↔ t = .nil) := by
  have hr : root = t.ptr := z.csub
  cases t with
  | nil => subst hr; simp
  | node l a c r =>
    subst hr
    have hc : c = 0 := hb
    subst hc
    have := z.sub.1
    constructor
    · simp only [T.ptr_node, Option.isSome_some, if_true, setRed, modify, this]
      congr 1; funext b; split
      · rename_i e; rw [e, this]
      · rfl
    · simp

theorem removeLeaf_leaf {h : Heap} {root : Ptr} {U U' : T} {lf : Nat} (z : Z h root .top U) (hh : Hole lf U U') (hb : U'.black) :
    ∃ h' root', removeLeaf lf h root = some (h', root') ∧ Z h' root' .top U' ∧ Same h h' U.keys ∧ lf ∉ U'.keys ∧
      (∃ x y, U.keys = x ++ lf :: y ∧ U'.keys = x ++ y) := by
  obtain ⟨k, rfl, rfl⟩ := hh.path
  have zk := Z.down.mpr z
  have hl := zk.sub.1
  have hn := zk.nodup
  have hkeys : ∃ x y, (k.plug (.node .nil lf 0 .nil)).keys = x ++ lf :: y ∧ (k.plug .nil).keys = x ++ y :=
    ⟨k.pre, k.post, by simp [C.keys_plug, T.keys], by simp [C.keys_plug, T.keys]⟩
  have hlk : lf ∉ (k.plug .nil).keys := by
    rw [C.keys_plug]
    simp only [T.keys, List.nil_append, List.nodup_append, List.nodup_cons, List.mem_append, List.mem_cons, List.not_mem_nil] at hn ⊢
    grind
  have hnd : (k.pre ++ (T.nil).keys ++ k.post).Nodup := by
    simp only [T.keys, List.nil_append, List.nodup_append, List.nodup_cons, List.mem_append, List.mem_cons, List.not_mem_nil] at hn ⊢
    grind
  cases hk : k.par with
  | none =>
    have : k = .top := by cases k <;> simp_all
    subst this
    refine ⟨h, none, ?_, ⟨trivial, rfl, by simp [C.pre, C.post, T.keys, C.plug]⟩, .refl _ _, hlk, hkeys⟩
    simp only [C.par_top, T.ptr_nil] at hl
    simp [removeLeaf, deref, hl]
  | some p =>
    have ⟨⟨np, hp⟩, hpt⟩ := zk.above hk
    have hpl : p ≠ lf := by rintro rfl; exact hpt (by simp [T.keys])
    rw [hk] at hl
    have key : ∃ h1, Z h1 root k .nil ∧ Same h h1 (k.plug (.node .nil lf 0 .nil)).keys ∧
        (if np.left = some lf then setLeft h (some p) none else setRight h (some p) none) = some h1 := by
      by_cases hc : np.left = some lf
      · refine ⟨fun b => if b = p then some { np with left := none } else h b, ?_, ?_, by simp [hc, setLeft, modify, hp]⟩
        · refine zk.replace rfl trivial hnd ?_ ?_ (by simp [hk]) ?_
          · intro p' n hp' hn' _; rw [hk] at hp'; cases hp'; rw [hp] at hn'; cases hn'; simp
          · intro p' n hp' hn' hne; rw [hk] at hp'; cases hp'; rw [hp] at hn'; cases hn'; exact absurd hc hne
          · intro a _ hne
            rw [hk] at hne
            have : a ≠ p := fun e => hne (e ▸ rfl)
            simp [this]
        · intro b hb
          have : b ≠ p := by
            rintro rfl
            have := par_mem hk
            simp only [C.keys_plug, List.mem_append, not_or] at hb this
            grind
          simp [this]
      · refine ⟨fun b => if b = p then some { np with right := none } else h b, ?_, ?_, by simp [hc, setRight, modify, hp]⟩
        · refine zk.replace rfl trivial hnd ?_ ?_ (by simp [hk]) ?_
          · intro p' n hp' hn' hne; rw [hk] at hp'; cases hp'; rw [hp] at hn'; cases hn'; exact absurd hne hc
          · intro p' n hp' hn' hne; rw [hk] at hp'; cases hp'; rw [hp] at hn'; cases hn'; simp
          · intro a _ hne
            rw [hk] at hne
            have : a ≠ p := fun e => hne (e ▸ rfl)
            simp [this]
        · intro b hb
          have : b ≠ p := by
            rintro rfl
            have := par_mem hk
            simp only [C.keys_plug, List.mem_append, not_or] at hb this
            grind
          simp [this]
    obtain ⟨h1, z1, s1, e1⟩ := key
    have z1' := Z.down.mp z1
    refine ⟨h1, root, ?_, z1', s1, hlk, hkeys⟩
    have eb := (blacken z1' hb).1
    simp only [T.ptr_nil] at hl
    by_cases hc : np.left = some lf
    · rw [if_pos hc] at e1
      simp [removeLeaf, deref, hl, hp, hc, e1]
      intro hs; rw [if_pos hs] at eb; rw [eb]; rfl
    · rw [if_neg hc] at e1
      simp [removeLeaf, deref, hl, hp, hc, e1]
      intro hs; rw [if_pos hs] at eb; rw [eb]; rfl

theorem removeLeaf_none {h : Heap} {root : Ptr} {l r : T} {a c lf : Nat} {nl : Node} (z : Z h root .top (.node l a c r)) (hl : h lf = some nl) (h3 : nl.red = 3) :
    ∃ h', removeLeaf lf h root = some (h', root) ∧ Z h' root .top (.node l a 0 r) ∧ ∀ b, b ≠ a → h' b = h b := by
  obtain ⟨h', e, z', f⟩ := z.setRed 0
  refine ⟨h', ?_, z', f⟩
  have hr : root = some a := z.csub
  subst hr
  simp [removeLeaf, deref, hl, h3, e]

theorem repMin_height (z : Nat) (t : T) : (t.repMin z).height = t.height := by
  induction t with
  | nil => rfl
  | node l a c r ih _ =>
    cases l with
    | nil => rfl
    | node l' a' c' r' => simp only [T.repMin, T.height] at ih ⊢; rw [ih]

/-- A deletion after the exchange with the successor, that is of a node with at most one child. -/
theorem delete_rest {fuel lf : Nat} {h : Heap} {root : Ptr} {k : C} {L R : T} {z cz m : Nat} {nl : Node} (zz : Z h root k (.node L z cz R))
    (hLR : L = .nil ∨ R = .nil) (hb : Bal (k.plug (.node L z cz R)) m) (hbl : (k.plug (.node L z cz R)).black)
    (hlf : h lf = some nl) (h3 : nl.red = 3) (hl : lf ∉ (k.plug (.node L z cz R)).keys) (hf : k.depth + 5 ≤ fuel) :
    ∃ h' root' t' m', (do
        let (h, root, n) ← unlink lf h root (some z)
        let (h, root) ← deleteLoop fuel h root n
        removeLeaf lf h root) = some (h', root') ∧ Z h' root' .top t' ∧ Bal t' m' ∧ t'.black ∧
      t'.keys = k.pre ++ (L.keys ++ R.keys) ++ k.post ∧ Same h h' (lf :: (k.plug (.node L z cz R)).keys) := by
  obtain ⟨f, rfl⟩ : ∃ f, fuel = f + 1 := ⟨fuel - 1, by omega⟩
  obtain ⟨n, hcb, hbn, hpr, htp⟩ := Bal.unplug hb hbl
  by_cases hnil : L = .nil ∧ R = .nil
  · obtain ⟨rfl, rfl⟩ := hnil
    obtain ⟨h1, root1, e1, z1, s1⟩ := unlink_leaf zz hlf hl
    have hlk : lf ∉ k.pre ++ k.post := by
      simp only [C.keys_plug, T.keys, List.mem_append, List.mem_cons, List.not_mem_nil] at hl ⊢; grind
    have hkeys1 : ∀ c, (k.plug (.node .nil lf c .nil)).keys = k.pre ++ lf :: k.post := by intro c; simp [C.keys_plug, T.keys]
    -- it is enough to end in a balanced tree with a dummy leaf
    suffices fin : (∃ h2 root2 U U' m', deleteLoop (f + 1) h1 root1 (some lf) = some (h2, root2) ∧ Z h2 root2 .top U ∧ Hole lf U U' ∧ Bal U' m' ∧ U'.black ∧
        U.keys = k.pre ++ lf :: k.post ∧ Same h1 h2 (k.pre ++ lf :: k.post)) by
      obtain ⟨h2, root2, U, U', m', e2, z2, hH, hb', hbl', hk, s2⟩ := fin
      obtain ⟨h3, root3, e3, z3, s3, hl3, x, y, hx1, hx2⟩ := removeLeaf_leaf z2 hH hbl'
      refine ⟨h3, root3, U', m', by simp [e1, e2, e3], z3, hb', hbl', ?_, ?_⟩
      · -- a list without repetitions splits at `lf` in one way
        have hxy : x = k.pre ∧ y = k.post := by
          have h1 : x ++ lf :: y = k.pre ++ lf :: k.post := by rw [← hx1, hk]
          have hlx : lf ∉ x := fun c => hl3 (by rw [hx2]; simp [c])
          have hlp : lf ∉ k.pre := fun c => hlk (by simp [c])
          have := congrArg (List.takeWhile (· != lf)) h1
          rw [List.takeWhile_append_of_pos (by intro a ha; simp; rintro rfl; exact hlx ha),
            List.takeWhile_append_of_pos (by intro a ha; simp; rintro rfl; exact hlp ha)] at this
          simp at this
          subst this
          simp at h1
          exact ⟨rfl, h1⟩
        rw [hx2, hxy.1, hxy.2]; simp [T.keys]
      · intro b hb
        have hb' : b ∉ k.pre ++ lf :: k.post := by
          simp only [C.keys_plug, T.keys, List.mem_append, List.mem_cons, List.not_mem_nil, not_or] at hb ⊢; grind
        rw [s3 b (by rw [hk]; exact hb'), s2 b hb', s1 b hb]
    by_cases hk0 : k.par = none
    · have : k = .top := by cases k <;> simp_all
      subst this
      rw [if_pos hk0] at z1
      refine ⟨h1, root1, _, _, 0, deleteLoop_stop z1 (by omega), z1, .leaf, rfl, trivial, by simp [T.keys, C.pre, C.post], .refl _ _⟩
    · rw [if_neg hk0] at z1
      have hkt : k ≠ .top := by rintro rfl; exact hk0 rfl
      rcases hbn with ⟨rfl, q, rfl, b1, b2⟩ | ⟨rfl, b0, _, b1, b2⟩
      · obtain rfl : q = 0 := b1
        rw [if_neg (by simp)] at z1
        obtain ⟨h2, root2, U, U', m', d⟩ := deleteLoop_spec (lf := lf) (f + 1) h1 root1 k .nil .nil lf 0 .nil z1 hcb .leaf rfl trivial hf
        rw [hkeys1] at d
        exact ⟨h2, root2, U, U', m', d⟩
      · rw [if_pos (by simp)] at z1
        obtain ⟨m', hm, hm'⟩ := Bal.plug (t := .nil) hcb b1 (fun _ => trivial) (fun _ => trivial)
        exact ⟨h1, root1, _, _, m', deleteLoop_stop z1 (by omega), Z.down.mp z1, Hole.leaf.plug, hm, hm', hkeys1 0, .refl _ _⟩
  · -- exactly one child, which is red
    have hx : cz = 0 ∧ n = 1 ∧ ∃ x, L = .node .nil x 1 .nil ∧ R = .nil ∨ L = .nil ∧ R = .node .nil x 1 .nil := by
      have one : ∀ t : T, t ≠ .nil → Bal t 0 → ∃ x, t = .node .nil x 1 .nil := by
        intro t ht hb
        cases t with
        | nil => exact absurd rfl ht
        | node l a c r =>
          rcases hb with ⟨_, m, hm, _⟩ | ⟨rfl, h1, h2, h3, h4⟩
          · exact absurd hm (by omega)
          · have : ∀ u : T, u.black → Bal u 0 → u = .nil := by
              intro u hu hb
              cases u with
              | nil => rfl
              | node l a c r =>
                have hu : c = 0 := hu
                subst hu
                rcases hb with ⟨_, m, hm, _⟩ | ⟨c, _⟩
                · exact absurd hm (by omega)
                · exact absurd c (by omega)
            rw [this l h1 h3, this r h2 h4]
            exact ⟨a, rfl⟩
      have nonred : ∀ u : T, u.black → Bal u 0 → u = .nil := by
        intro u hu hb
        cases u with
        | nil => rfl
        | node l a c r =>
          obtain ⟨x, hx⟩ := one _ (fun c => T.noConfusion c) hb
          cases hx
          exact absurd hu (by simp [T.black])
      rcases hLR with rfl | rfl
      · have hR : R ≠ .nil := fun e => hnil ⟨rfl, e⟩
        rcases hbn with ⟨rfl, q, rfl, b1, b2⟩ | ⟨rfl, b0, b0', b1, b2⟩
        · obtain rfl : q = 0 := b1
          obtain ⟨x, hx⟩ := one R hR b2
          exact ⟨rfl, rfl, x, Or.inr ⟨rfl, hx⟩⟩
        · obtain rfl : n = 0 := b1
          exact absurd (nonred R b0' b2) hR
      · have hL : L ≠ .nil := fun e => hnil ⟨e, rfl⟩
        rcases hbn with ⟨rfl, q, rfl, b1, b2⟩ | ⟨rfl, b0, b0', b1, b2⟩
        · obtain rfl : q = 0 := b2
          obtain ⟨x, hx⟩ := one L hL b1
          exact ⟨rfl, rfl, x, Or.inl ⟨hx, rfl⟩⟩
        · obtain rfl : n = 0 := b2
          exact absurd (nonred L b0 b1) hL
    obtain ⟨rfl, rfl, x, hx⟩ := hx
    have hLRk : L.keys ++ R.keys = [x] := by rcases hx with ⟨rfl, rfl⟩ | ⟨rfl, rfl⟩ <;> simp [T.keys]
    obtain ⟨h1, root1, e1, z1, s1⟩ := unlink_child zz hx hl
    have hsub : ∀ b, b ∈ (k.plug (.node .nil x 0 .nil)).keys → b ∈ (k.plug (.node L z 0 R)).keys := by
      intro b hbx
      simp only [C.keys_plug, T.keys, List.mem_append, List.mem_cons, List.not_mem_nil] at hbx
      rcases hx with ⟨rfl, rfl⟩ | ⟨rfl, rfl⟩ <;> simp only [C.keys_plug, T.keys, List.mem_append, List.mem_cons, List.not_mem_nil] <;> grind
    have hl1 : h1 lf = some nl := by rw [s1 lf hl, hlf]
    have e2 := deleteLoop_stop (f := f) z1 (by split <;> omega)
    have hb1 : Bal (.node .nil x 0 .nil) 1 := .blk rfl rfl
    -- the tree is black at its root after the last write
    have hroot : ∃ h2, removeLeaf lf h1 root1 = some (h2, root1) ∧ Z h2 root1 k (.node .nil x 0 .nil) ∧ Same h1 h2 (k.plug (.node .nil x 0 .nil)).keys := by
      by_cases hk0 : k.par = none
      · have : k = .top := by cases k <;> simp_all
        subst this
        obtain ⟨h2, e, z2, f2⟩ := removeLeaf_none z1 hl1 h3
        exact ⟨h2, e, z2, fun b hb => f2 b (by rintro rfl; simp [C.plug, T.keys] at hb)⟩
      · rw [if_neg hk0] at z1
        have hkt : k ≠ .top := by rintro rfl; exact hk0 rfl
        obtain ⟨m', _, hm'⟩ := Bal.plug hcb hb1 (fun _ => rfl) (fun _ => rfl)
        have z1' := Z.down.mp z1
        have hbk := blacken z1' hm'
        refine ⟨h1, ?_, z1, .refl _ _⟩
        have hrs : root1.isSome := by
          cases root1 with
          | none => exact absurd (congrArg T.keys (hbk.2.mp rfl)) (by simp [C.keys_plug, T.keys])
          | some a => rfl
        have e := hbk.1
        rw [if_pos hrs] at e
        simp [removeLeaf, deref, hl1, h3, hrs, e]
    obtain ⟨h2, e3, z2, s2⟩ := hroot
    obtain ⟨m', hm, hm'⟩ := Bal.plug hcb hb1 (fun _ => rfl) (fun _ => rfl)
    refine ⟨h2, root1, _, m', by simp [e1, e2, e3], Z.down.mp z2, hm, hm', ?_, ?_⟩
    · rw [hLRk, C.keys_plug]; simp [T.keys]
    · intro b hb
      simp only [List.mem_cons, not_or] at hb
      rw [s2 b (fun c => hb.2 (hsub b c)), s1 b hb.2]

/-- The effect of a deletion on a balanced tree. -/
theorem delete_spec {fuel lf : Nat} {h : Heap} {root : Ptr} {t : T} {z m : Nat} (zt : Z h root .top t) (hb : Bal t m) (hbl : t.black) (hz : z ∈ t.keys)
    (hl : lf ∉ t.keys) (hf : t.height + 5 ≤ fuel) :
    ∃ h' root' t' m' x y, delete fuel lf h root z = some (h', root') ∧ Z h' root' .top t' ∧ Bal t' m' ∧ t'.black ∧
      t.keys = x ++ z :: y ∧ t'.keys = x ++ y ∧ Same h h' (lf :: t.keys) := by
  -- the position of the node
  have hpos : ∀ t : T, z ∈ t.keys → ∃ k L c R, t = C.plug k (.node L z c R) := by
    intro t
    induction t with
    | nil => intro h; simp [T.keys] at h
    | node l a c r ihl ihr =>
      intro h
      simp only [T.keys, List.mem_append, List.mem_cons] at h
      rcases h with h | rfl | h
      · obtain ⟨k, L, c', R, e⟩ := ihl h
        exact ⟨(C.left .top a c r).app k, L, c', R, by rw [C.plug_app, ← e]; rfl⟩
      · exact ⟨.top, l, c, r, rfl⟩
      · obtain ⟨k, L, c', R, e⟩ := ihr h
        exact ⟨(C.right l a c .top).app k, L, c', R, by rw [C.plug_app, ← e]; rfl⟩
  obtain ⟨k, L, cz, R, rfl⟩ := hpos t hz
  let h0 : Heap := fun b => if b = lf then some ⟨none, none, none, 3⟩ else h b
  have hl0 : h0 lf = some ⟨none, none, none, 3⟩ := by simp [h0]
  have z0 : Z h0 root k (.node L z cz R) := by
    refine Z.down.mpr (zt.frame fun a ha => ?_)
    have : a ≠ lf := by rintro rfl; exact hl ha
    simp [h0, this]
  have s0 : Same h h0 (lf :: (k.plug (.node L z cz R)).keys) := by
    intro b hb
    simp only [List.mem_cons, not_or] at hb
    simp [h0, hb.1]
  have hdh := k.height_plug (.node L z cz R)
  by_cases hLR : L = .nil ∨ R = .nil
  · obtain ⟨h', root', t', m', e, z', hb', hbl', hk, hs⟩ := delete_rest (fuel := fuel) z0 hLR hb hbl hl0 rfl hl (by omega)
    refine ⟨h', root', t', m', k.pre ++ L.keys, R.keys ++ k.post, ?_, z', hb', hbl', by simp [C.keys_plug, T.keys], by rw [hk]; simp, s0.trans hs⟩
    have e1 : swapSucc fuel h0 root (some z) = some (h0, root) := by
      have hd := z0.sub.1
      rcases hLR with rfl | rfl <;> simp [swapSucc, deref, hd]
    rw [delete]
    change (do
      let (h, root) ← swapSucc fuel h0 root (some z)
      _) = _
    rw [e1]
    exact e
  · cases L with
    | nil => exact absurd (Or.inl rfl) hLR
    | node l1 la lc l2 =>
    cases R with
    | nil => exact absurd (Or.inr rfl) hLR
    | node r1 ra rc r2 =>
    simp only [T.height] at hdh
    obtain ⟨h1, root1, d, s, c, r, e1, hR, hR', hd, z1, s1⟩ := swapSucc_spec (fuel := fuel) z0 (by omega)
    obtain ⟨k1, k2⟩ := repMin_keys hR hR' hd
    have z1' : Z h1 root1 ((C.right (.node l1 la lc l2) s cz k).app d) (.node .nil z c r) := by
      rw [Z.down, C.plug_app, ← hR']
      exact (Z.down (k := k)).mp z1
    have hplug : ((C.right (.node l1 la lc l2) s cz k).app d).plug (.node .nil z c r) = k.plug (.node (.node l1 la lc l2) s cz ((T.node r1 ra rc r2).repMin z)) := by
      rw [C.plug_app, ← hR']; rfl
    have hkeys : ∀ b, b ∈ (k.plug (.node (.node l1 la lc l2) s cz ((T.node r1 ra rc r2).repMin z))).keys ↔ b ∈ (k.plug (.node (.node l1 la lc l2) z cz (.node r1 ra rc r2))).keys := by
      intro b
      rw [C.keys_plug, C.keys_plug, T.keys, T.keys.eq_def (.node (.node l1 la lc l2) z cz (.node r1 ra rc r2))]
      simp only [k1, k2, List.mem_append, List.mem_cons, List.cons_append]
      grind
    have hbb : ∃ m, Bal (k.plug (.node (.node l1 la lc l2) s cz ((T.node r1 ra rc r2).repMin z))) m ∧
        (k.plug (.node (.node l1 la lc l2) s cz ((T.node r1 ra rc r2).repMin z))).black := by
      obtain ⟨n, hcb, hbn, hpr, htp⟩ := Bal.unplug hb hbl
      refine Bal.plug hcb ?_ hpr htp
      rcases hbn with ⟨h1, m, h2, h3, h4⟩ | ⟨h1, h2, h3, h4, h5⟩
      · exact Or.inl ⟨h1, m, h2, h3, h4.repMin z _ _⟩
      · exact Or.inr ⟨h1, h2, (repMin_black z _).mpr h3, h4, h5.repMin z _ _⟩
    obtain ⟨m1, hb1, hbl1⟩ := hbb
    have hl1 : h1 lf = some ⟨none, none, none, 3⟩ := by rw [s1 lf hl, hl0]
    have hdepth : ((C.right (.node l1 la lc l2) s cz k).app d).depth + 5 ≤ fuel := by
      have h1 := ((C.right (.node l1 la lc l2) s cz k).app d).height_plug (.node .nil z c r)
      rw [hplug] at h1
      have h2 := k.height_mono (t := .node (.node l1 la lc l2) s cz ((T.node r1 ra rc r2).repMin z)) (t' := .node (.node l1 la lc l2) z cz (.node r1 ra rc r2))
        (by rw [T.height, repMin_height]; exact Nat.le_refl _)
      omega
    obtain ⟨h', root', t', m', e, z', hb', hbl', hk, hs⟩ := delete_rest (fuel := fuel) z1' (Or.inl rfl) (hplug ▸ hb1) (hplug ▸ hbl1) hl1 rfl
      (by rw [hplug, hkeys]; exact hl) hdepth
    refine ⟨h', root', t', m', k.pre ++ (T.node l1 la lc l2).keys, (T.node r1 ra rc r2).keys ++ k.post, ?_, z', hb', hbl', ?_, ?_, ?_⟩
    · rw [delete]
      change (do
        let (h, root) ← swapSucc fuel h0 root (some z)
        _) = _
      rw [e1]
      exact e
    · rw [C.keys_plug, T.keys]; simp
    · rw [hk, C.pre_app, C.post_app, hd, k1]; simp [C.pre, C.post, T.keys]
    · intro b hb
      simp only [List.mem_cons, not_or] at hb
      rw [hs b (by simp only [List.mem_cons, not_or]; exact ⟨hb.1, by rw [hplug, hkeys]; exact hb.2⟩), s1 b hb.2, s0 b (by simp only [List.mem_cons, not_or]; exact hb)]

end Verif.Rb
