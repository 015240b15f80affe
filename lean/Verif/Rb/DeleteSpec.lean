import Verif.Rb.Swap

/-!
The parts of `kos_red_black_delete` on trees, and the whole.
-/
namespace Verif.Rb

/-- Extend a path downwards. -/
def C.app (k : C) : C → C
  | .top => k
  | .left d a c r => .left (k.app d) a c r
  | .right l a c d => .right l a c (k.app d)

theorem C.plug_app (k : C) : ∀ (d : C) (t : T), (k.app d).plug t = k.plug (d.plug t) := by
  intro d
  induction d with
  | top => intro t; rfl
  | left d a c r ih => intro t; exact ih _
  | right l a c d ih => intro t; exact ih _

theorem C.pre_app (k : C) : ∀ d : C, (k.app d).pre = k.pre ++ d.pre := by
  intro d
  induction d with
  | top => simp [C.app, C.pre]
  | left d a c r ih => simpa [C.app, C.pre] using ih
  | right l a c d ih => simp [C.app, C.pre, ih]

theorem C.post_app (k : C) : ∀ d : C, (k.app d).post = d.post ++ k.post := by
  intro d
  induction d with
  | top => simp [C.app, C.post]
  | left d a c r ih => simp [C.app, C.post, ih]
  | right l a c d ih => simpa [C.app, C.post] using ih

/-- Put another address in place of the first one. -/
def T.repMin (z : Nat) : T → T
  | .nil => .nil
  | .node .nil _ c r => .node .nil z c r
  | .node (.node l' a' c' r') a c r => .node (T.repMin z (.node l' a' c' r')) a c r

theorem repMin_black (z : Nat) (t : T) : (t.repMin z).black ↔ t.black := by
  cases t with
  | nil => exact Iff.rfl
  | node l a c r => cases l <;> exact Iff.rfl

theorem Bal.repMin (z : Nat) : ∀ (t : T) (n : Nat), Bal t n → Bal (t.repMin z) n := by
  intro t
  induction t with
  | nil => intro n h; exact h
  | node l a c r ihl _ =>
    intro n h
    cases l with
    | nil => exact h
    | node l' a' c' r' =>
      rcases h with ⟨h1, m, h2, h3, h4⟩ | ⟨h1, h2, h3, h4, h5⟩
      · exact Or.inl ⟨h1, m, h2, ihl m h3, h4⟩
      · exact Or.inr ⟨h1, (repMin_black z _).mpr h2, h3, ihl n h4, h5⟩

/-- The leftmost node of a tree. -/
theorem exists_min (z : Nat) : ∀ (l : T) (a c : Nat) (r : T), ∃ d s c' r', T.node l a c r = C.plug d (.node .nil s c' r') ∧
    (T.node l a c r).repMin z = C.plug d (.node .nil z c' r') ∧ d.pre = [] := by
  intro l
  induction l with
  | nil => intro a c r; exact ⟨.top, a, c, r, rfl, rfl, rfl⟩
  | node l' a' c' r' ih _ =>
    intro a c r
    obtain ⟨d, s, c1, r1, h1, h2, h3⟩ := ih a' c' r'
    refine ⟨(C.left .top a c r).app d, s, c1, r1, ?_, ?_, by rw [C.pre_app, h3]; rfl⟩
    · rw [C.plug_app, ← h1]; rfl
    · rw [C.plug_app, ← h2]; rfl

/-- Effect of the exchange on the tree to the right of the deleted node. -/
theorem minSwap {h h' : Heap} {z s cs : Nat} {q x : Ptr} (hs : h s = some ⟨q, none, x, cs⟩) (h1 : h' z = some ⟨q, none, x, cs⟩)
    (h4 : ∀ b n, x = some b → h b = some n → h' b = some { n with parent := some z }) :
    ∀ (t : T) (p : Ptr), Sub h p t → t.keys.Nodup → t.keys.head? = some s → (∀ b, p = some b → b ∉ t.keys) →
      (∀ b ∈ t.keys, b ≠ s → some b ≠ q → some b ≠ x → h' b = h b) →
      (∀ b n, q = some b → b ∈ t.keys → h b = some n → h' b = some { n with left := some z }) →
      Sub h' p (t.repMin z) ∧ (t.repMin z).ptr = (if t.ptr = some s then some z else t.ptr) ∧ (t.ptr = some s → q = p) ∧
        (t.ptr ≠ some s → ∃ b ∈ t.keys, q = some b) ∧ (∀ b, x = some b → b ∈ t.keys ∧ some b ≠ t.ptr) := by
  intro t
  induction t with
  | nil => intro p _ _ hh; simp [T.keys] at hh
  | node l a c r ihl _ =>
    intro p hsub hn hh hp h2 h3
    obtain ⟨ha, hl, hr⟩ := hsub
    simp only [T.keys, List.nodup_append, List.nodup_cons, List.mem_cons] at hn
    cases l with
    | nil =>
      simp only [T.keys, List.nil_append, List.head?_cons, Option.some.injEq] at hh
      subst hh
      rw [hs, Option.some.injEq, Node.mk.injEq] at ha
      obtain ⟨rfl, -, rfl, rfl⟩ := ha
      refine ⟨⟨h1, trivial, hr.reparent hn.2.1.2 (fun b hb hne => h2 b (by simp [T.keys, hb]) ?_ ?_ hne) h4⟩, by simp [T.repMin], fun _ => rfl, by simp, ?_⟩
      · rintro rfl; exact hn.2.1.1 hb
      · intro e; exact hp b e.symm (by simp [T.keys, hb])
      · intro b hb
        have := ptr_mem hb
        refine ⟨by simp [T.keys, this], ?_⟩
        simp only [T.ptr_node, ne_eq, Option.some.injEq]; rintro rfl; exact hn.2.1.1 this
    | node l' a' c' r' =>
      have hmin : (T.node l' a' c' r').keys.head? = some s := by
        have : ∀ m : List Nat, (T.node l' a' c' r').keys ++ m ≠ [] ∧ ((T.node l' a' c' r').keys ++ m).head? = (T.node l' a' c' r').keys.head? := by
          intro m
          have : (T.node l' a' c' r').keys ≠ [] := by simp [T.keys]
          obtain ⟨w, ws, hw⟩ := List.exists_cons_of_ne_nil this
          rw [hw]; simp
        rw [T.keys, (this _).2] at hh
        exact hh
      have hsm : s ∈ (T.node l' a' c' r').keys := List.mem_of_mem_head? hmin
      have hsa : a ≠ s := by rintro rfl; exact hn.2.2 _ hsm a (Or.inl rfl) rfl
      obtain ⟨i1, i2, i3, i4, i5⟩ := ihl (some a) hl hn.1 hmin
        (by intro b hb; rw [Option.some.injEq] at hb; subst hb; intro c; exact hn.2.2 _ c a (Or.inl rfl) rfl)
        (fun b hb => h2 b (by rw [T.keys]; exact List.mem_append_left _ hb)) (fun b n hq hb => h3 b n hq (by rw [T.keys]; exact List.mem_append_left _ hb))
      have hxa : some a ≠ x := by
        intro e; exact hn.2.2 _ (i5 a e.symm).1 a (Or.inl rfl) rfl
      refine ⟨⟨?_, i1, hr.frame fun b hb => h2 b ?_ ?_ ?_ ?_⟩, ?_, ?_, ?_, ?_⟩
      · by_cases hc : (T.node l' a' c' r').ptr = some s
        · rw [h3 a _ (i3 hc) (by simp [T.keys]) ha, i2, if_pos hc]
        · obtain ⟨b, hb, hq⟩ := i4 hc
          rw [h2 a (by simp [T.keys]) hsa ?_ hxa, i2, if_neg hc, ha]
          rw [hq]; intro e; rw [Option.some.injEq] at e; subst e; exact hn.2.2 _ hb a (Or.inl rfl) rfl
      · rw [T.keys]; simp [hb]
      · rintro rfl; exact hn.2.2 _ hsm b (Or.inr hb) rfl
      · by_cases hc : (T.node l' a' c' r').ptr = some s
        · rw [i3 hc]; intro e; rw [Option.some.injEq] at e; subst e; exact hn.2.1.1 hb
        · obtain ⟨b', hb', hq⟩ := i4 hc
          rw [hq]; intro e; rw [Option.some.injEq] at e; subst e; exact hn.2.2 _ hb' b (Or.inr hb) rfl
      · intro e; exact hn.2.2 _ (i5 b e.symm).1 b (Or.inr hb) rfl
      · simp [T.repMin, hsa]
      · intro e; simp only [T.ptr_node, Option.some.injEq] at e; exact absurd e hsa
      · intro _
        by_cases hc : (T.node l' a' c' r').ptr = some s
        · exact ⟨a, by simp [T.keys], i3 hc⟩
        · obtain ⟨b', hb', hq⟩ := i4 hc
          exact ⟨b', by rw [T.keys]; exact List.mem_append_left _ hb', hq⟩
      · intro b hb
        refine ⟨by rw [T.keys]; exact List.mem_append_left _ (i5 b hb).1, ?_⟩
        rw [T.ptr_node, ← hb]; exact hxa.symm

/-- Distinctness of the parts of the tree around a deleted node and its successor. -/
structure SD (P A X E Q : List Nat) (z s : Nat) : Prop where
  zs : z ≠ s
  zA : z ∉ A
  sA : s ∉ A
  zX : z ∉ X
  sX : s ∉ X
  zE : z ∉ E
  sE : s ∉ E
  AX : ∀ b ∈ A, b ∉ X
  AE : ∀ b ∈ A, b ∉ E
  XE : ∀ b ∈ X, b ∉ E
  out : ∀ b ∈ P ++ Q, b ≠ z ∧ b ≠ s ∧ b ∉ A ∧ b ∉ X ∧ b ∉ E
  nA : A.Nodup
  nX : X.Nodup
  nE : E.Nodup
  nPQ : (P ++ Q).Nodup

theorem sd {P A X E Q : List Nat} {z s : Nat} (h : (P ++ (A ++ z :: (s :: X ++ E)) ++ Q).Nodup) : SD P A X E Q z s := by
  simp only [List.cons_append, List.nodup_append, List.nodup_cons, List.mem_append, List.mem_cons, not_or] at h
  constructor
  all_goals grind

theorem SD.back {P A X E Q : List Nat} {z s : Nat} (h : (P ++ (A ++ z :: (s :: X ++ E)) ++ Q).Nodup) : (P ++ (A ++ s :: (z :: X ++ E)) ++ Q).Nodup := by
  simp only [List.cons_append, List.nodup_append, List.nodup_cons, List.mem_append, List.mem_cons, not_or] at h ⊢
  grind

theorem repMin_keys {z s c : Nat} {t r : T} {d : C} (h1 : t = d.plug (.node .nil s c r)) (h2 : t.repMin z = d.plug (.node .nil z c r)) (h3 : d.pre = []) :
    t.keys = s :: r.keys ++ d.post ∧ (t.repMin z).keys = z :: r.keys ++ d.post := by
  rw [h2, h1, C.keys_plug, C.keys_plug, h3]
  simp [T.keys]

/-- Parts of the exchange which do not depend on how the nodes are adjacent. -/
theorem swap_finish {h h' : Heap} {root root' : Ptr} {k : C} {L R : T} {z s cz : Nat} {d : C} {c : Nat} {r : T}
    (zz : Z h root k (.node L z cz R)) (hR : R = d.plug (.node .nil s c r)) (hR' : R.repMin z = d.plug (.node .nil z c r)) (hd : d.pre = [])
    (es : h' s = some ⟨k.par, L.ptr, (R.repMin z).ptr, cz⟩)
    (eL : ∀ b n, L.ptr = some b → h b = some n → h' b = some { n with parent := some s })
    (ep1 : ∀ p n, k.par = some p → h p = some n → n.left = some z → h' p = some { n with left := some s })
    (ep2 : ∀ p n, k.par = some p → h p = some n → n.left ≠ some z → h' p = some { n with right := some s })
    (er : root' = (if k.par = none then some s else root))
    (eo : ∀ a, a ≠ z → a ≠ s → some a ≠ L.ptr → a ∉ R.keys → some a ≠ k.par → h' a = h a)
    (hsub : Sub h' (some s) (R.repMin z)) : Z h' root' k (.node L s cz (R.repMin z)) ∧ Same h h' (k.plug (.node L z cz R)).keys := by
  obtain ⟨k1, k2⟩ := repMin_keys hR hR' hd
  have hn := zz.nodup
  rw [T.keys, k1] at hn
  have D := sd hn
  have hRk : ∀ b, b ∈ R.keys ↔ b = s ∨ b ∈ r.keys ∨ b ∈ d.post := by intro b; rw [k1]; simp
  have nl : ∀ b, b ∉ L.keys → some b ≠ L.ptr := fun b hb e => hb (ptr_mem e.symm)
  have nk : ∀ b, b ∉ k.pre ++ k.post → some b ≠ k.par := fun b hb e => hb (par_mem e.symm)
  refine ⟨⟨⟨es, zz.sub.2.1.reparent D.nA (fun b hb hne => eo b ?_ ?_ hne ?_ (nk b ?_)) eL, hsub⟩, ?_, ?_⟩, ?_⟩
  · rintro rfl; exact D.zA hb
  · rintro rfl; exact D.sA hb
  · rw [hRk]; rintro (rfl | c | c)
    · exact D.sA hb
    · exact D.AX b hb c
    · exact D.AE b hb c
  · intro c; exact (D.out b c).2.2.1 hb
  · have hcs := zz.csub
    rw [er]
    cases k with
    | top => simp [CSub]
    | left k p pc u =>
      have hp := hcs.1
      simp only [C.par_left, reduceCtorEq, if_false]
      refine hcs.rechild D.nPQ (fun c => C.noConfusion c) (fun b hb hne => ?_) ?_ (by rintro _ _ _ _ ⟨⟩)
      · obtain ⟨o1, o2, o3, o4, o5⟩ := D.out b hb
        exact eo b o1 o2 (nl b o3) (by rw [hRk]; simp [o2, o4, o5]) hne
      · rintro _ _ _ _ ⟨⟩
        exact ep1 p _ rfl hp rfl
    | right u p pc k =>
      have hp := hcs.1
      simp only [C.par_right, reduceCtorEq, if_false]
      refine hcs.rechild D.nPQ (fun c => C.noConfusion c) (fun b hb hne => ?_) (by rintro _ _ _ _ ⟨⟩) ?_
      · obtain ⟨o1, o2, o3, o4, o5⟩ := D.out b hb
        exact eo b o1 o2 (nl b o3) (by rw [hRk]; simp [o2, o4, o5]) hne
      · rintro _ _ _ _ ⟨⟩
        refine ep2 p _ rfl hp ?_
        intro e
        exact (D.out z (by have := ptr_mem e; simp [C.pre, C.post, this])).1 rfl
  · rw [T.keys, k2]; exact SD.back hn
  · intro b hb
    simp only [C.keys_plug, T.keys, List.mem_append, List.mem_cons, not_or] at hb
    refine eo b hb.1.2.2.1 ?_ (nl b hb.1.2.1) hb.1.2.2.2 (nk b ?_)
    · rintro rfl; exact hb.1.2.2.2 ((hRk b).mpr (Or.inl rfl))
    · simp only [List.mem_append, not_or]; exact ⟨hb.1.1, hb.2⟩

theorem swapSucc_spec {h : Heap} {root : Ptr} {k : C} {l1 l2 r1 r2 : T} {la lc z cz ra rc fuel : Nat}
    (zz : Z h root k (.node (.node l1 la lc l2) z cz (.node r1 ra rc r2))) (hf : r1.height < fuel) :
    ∃ h' root' d s c r, swapSucc fuel h root (some z) = some (h', root') ∧ T.node r1 ra rc r2 = C.plug d (.node .nil s c r) ∧
      (T.node r1 ra rc r2).repMin z = C.plug d (.node .nil z c r) ∧ d.pre = [] ∧
      Z h' root' k (.node (.node l1 la lc l2) s cz ((T.node r1 ra rc r2).repMin z)) ∧
      Same h h' (k.plug (.node (.node l1 la lc l2) z cz (.node r1 ra rc r2))).keys := by
  have zr := Z.upR.mpr zz
  have hz : h z = some ⟨k.par, some la, some ra, cz⟩ := zz.sub.1
  have hla := (Z.upL.mpr zz).sub.1
  -- the root has a parent in the heap
  have hpar : ∀ p, k.par = some p → ∃ n, h p = some n := by
    intro p hp
    have hcs := zz.csub
    cases k with
    | top => cases hp
    | left k p' pc u => cases hp; exact ⟨_, hcs.1⟩
    | right u p' pc k => cases hp; exact ⟨_, hcs.1⟩
  cases r1 with
  | nil =>
    have hR : T.node .nil ra rc r2 = C.plug .top (.node .nil ra rc r2) := rfl
    have hR' : (T.node .nil ra rc r2).repMin z = C.plug .top (.node .nil z rc r2) := rfl
    obtain ⟨k1, k2⟩ := repMin_keys hR hR' rfl
    have hn := zz.nodup
    rw [T.keys, k1] at hn
    have D := sd hn
    have hs := zr.sub.1
    have laA : la ∈ (T.node l1 la lc l2).keys := ptr_mem rfl
    have hlm : leftmost h fuel (some ra) = some (some ra) := by
      obtain ⟨f, rfl⟩ : ∃ f, fuel = f + 1 := ⟨fuel - 1, by omega⟩
      simp [leftmost, deref, hs]
    have hx : ∀ b, r2.ptr = some b → (∃ n, h b = some n) ∧ b ≠ z ∧ b ≠ ra ∧ b ≠ la := by
      intro b hb
      have hm := ptr_mem hb
      refine ⟨?_, ?_, ?_, ?_⟩
      · cases r2 with
        | nil => cases hb
        | node u v w x => cases hb; exact ⟨_, (Z.upR.mpr zr).sub.1⟩
      · rintro rfl; exact D.zX hm
      · rintro rfl; exact D.sX hm
      · rintro rfl; exact D.AX b laA hm
    have hp : ∀ p, k.par = some p → (∃ n, h p = some n) ∧ r2.ptr ≠ some p ∧ p ≠ z ∧ p ≠ ra ∧ p ≠ la := by
      intro p hp
      obtain ⟨o1, o2, o3, o4, o5⟩ := D.out p (par_mem hp)
      exact ⟨hpar p hp, fun e => o4 (ptr_mem e), o1, o2, fun e => o3 (e ▸ laA)⟩
    obtain ⟨h', root', e, e1, e2, e3, e4, e5, e6, e7, e8⟩ := swap1 (root := root) hz hs hla hlm D.zs (fun e => D.zA (e ▸ laA)) (fun e => D.sA (e ▸ laA)) hx hp
    have := swap_finish zz hR hR' rfl (h' := h') (root' := root') (by rw [e1]; rfl) (by rintro b n ⟨⟩ hb; rw [hla] at hb; cases hb; exact e3)
      e5 e6 e7 (fun a a1 a2 a3 a4 a5 => e8 a a1 a2 (fun c => a3 (c ▸ rfl)) (fun c => a4 (by simp [T.keys, ptr_mem c.symm])) a5) ?_
    · exact ⟨h', root', .top, ra, rc, r2, e, hR, hR', rfl, this.1, this.2⟩
    · refine ⟨e2, trivial, (Z.upR.mpr zr).sub.reparent D.nX (fun b hb hne => e8 b ?_ ?_ ?_ hne ?_) e4⟩
      · rintro rfl; exact D.zX hb
      · rintro rfl; exact D.sX hb
      · rintro rfl; exact D.AX b laA hb
      · intro c; exact (D.out b (par_mem c.symm)).2.2.2.1 hb
  | node u1 u2 u3 u4 =>
    obtain ⟨d, s, c, r, hd1, hd2, hd3⟩ := exists_min z u1 u2 u3 u4
    have hR : T.node (.node u1 u2 u3 u4) ra rc r2 = C.plug ((C.left .top ra rc r2).app d) (.node .nil s c r) := by
      rw [C.plug_app, ← hd1]; rfl
    have hR' : (T.node (.node u1 u2 u3 u4) ra rc r2).repMin z = C.plug ((C.left .top ra rc r2).app d) (.node .nil z c r) := by
      rw [C.plug_app, ← hd2]; rfl
    have hd : ((C.left .top ra rc r2).app d).pre = [] := by rw [C.pre_app, hd3]; rfl
    obtain ⟨k1, k2⟩ := repMin_keys hR hR' hd
    obtain ⟨k3, k4⟩ := repMin_keys hd1 hd2 hd3
    have hn := zz.nodup
    rw [T.keys, k1] at hn
    have D := sd hn
    rw [C.post_app] at D
    simp only [C.post, List.append_nil] at D
    have nE := D.nE
    rw [List.nodup_append, List.nodup_cons] at nE
    have laA : la ∈ (T.node l1 la lc l2).keys := ptr_mem rfl
    have zl := Z.upL.mpr zr
    have zs : Z h root ((C.left (C.right (.node l1 la lc l2) z cz k) ra rc r2).app d) (.node .nil s c r) := by
      rw [Z.down, C.plug_app, ← hd1, ← Z.down]; exact zl
    have hs := zs.sub.1
    have hlm : leftmost h fuel (some ra) = some (some s) := by
      obtain ⟨k', a', c', r', e, _, e1, _, _⟩ := leftmost_spec fuel zr hf
      rw [e]
      rw [k1] at e1
      simp only [List.cons_append, List.cons.injEq] at e1
      rw [e1.1]
    have hra := zr.sub.1
    have raE : ra ∈ d.post ++ ra :: r2.keys := by simp
    have hx : ∀ b, r.ptr = some b → (∃ n, h b = some n) ∧ b ≠ z ∧ b ≠ s ∧ b ≠ la ∧ b ∉ d.post ∧ b ≠ ra ∧ b ∈ r.keys := by
      intro b hb
      have hm := ptr_mem hb
      refine ⟨?_, ?_, ?_, ?_, ?_, ?_, hm⟩
      · cases r with
        | nil => cases hb
        | node u v w x => cases hb; exact ⟨_, (Z.upR.mpr zs).sub.1⟩
      · rintro rfl; exact D.zX hm
      · rintro rfl; exact D.sX hm
      · rintro rfl; exact D.AX b laA hm
      · intro c; exact D.XE b hm (List.mem_append_left _ c)
      · rintro rfl; exact D.XE b hm raE
    have hp : ∀ p, k.par = some p → (∃ n, h p = some n) ∧ r.ptr ≠ some p ∧ p ≠ z ∧ p ≠ s ∧ p ≠ la ∧ p ∉ d.post ∧ p ≠ ra := by
      intro p hp
      obtain ⟨o1, o2, o3, o4, o5⟩ := D.out p (par_mem hp)
      exact ⟨hpar p hp, fun e => o4 (ptr_mem e), o1, o2, fun e => o3 (e ▸ laA), fun c => o5 (List.mem_append_left _ c), fun e => o5 (e ▸ raE)⟩
    -- the common end of both cases
    have fin : ∀ (h' : Heap) (root' q : Ptr), q = ((C.left (C.right (.node l1 la lc l2) z cz k) ra rc r2).app d).par →
        swapSucc fuel h root (some z) = some (h', root') →
        h' s = some ⟨k.par, some la, some ra, cz⟩ → h' z = some ⟨q, none, r.ptr, c⟩ →
        (∀ b n, (T.node l1 la lc l2).ptr = some b → h b = some n → h' b = some { n with parent := some s }) →
        (∀ b n, r.ptr = some b → h b = some n → h' b = some { n with parent := some z }) →
        (∀ p n, k.par = some p → h p = some n → n.left = some z → h' p = some { n with left := some s }) →
        (∀ p n, k.par = some p → h p = some n → n.left ≠ some z → h' p = some { n with right := some s }) →
        root' = (if k.par = none then some s else root) →
        h' ra = some ⟨some s, (if u2 = s then some z else some u2), r2.ptr, rc⟩ →
        (∀ b n, q = some b → b ∈ (T.node u1 u2 u3 u4).keys → h b = some n → h' b = some { n with left := some z }) →
        (∀ a, a ≠ z → a ≠ s → a ≠ la → a ≠ ra → (some a = q → a ∉ (T.node u1 u2 u3 u4).keys) → some a ≠ r.ptr → some a ≠ k.par → h' a = h a) →
        ∃ h' root' d s c r, swapSucc fuel h root (some z) = some (h', root') ∧ T.node (.node u1 u2 u3 u4) ra rc r2 = C.plug d (.node .nil s c r) ∧
          (T.node (.node u1 u2 u3 u4) ra rc r2).repMin z = C.plug d (.node .nil z c r) ∧ d.pre = [] ∧
          Z h' root' k (.node (.node l1 la lc l2) s cz ((T.node (.node u1 u2 u3 u4) ra rc r2).repMin z)) ∧
          Same h h' (k.plug (.node (.node l1 la lc l2) z cz (.node (.node u1 u2 u3 u4) ra rc r2))).keys := by
      intro h' root' q hq e e1 e2 e3 e4 e5 e6 e7 e8 e9 e10
      have ukeys : ∀ b, b ∈ (T.node u1 u2 u3 u4).keys ↔ b = s ∨ b ∈ r.keys ∨ b ∈ d.post := by intro b; rw [k3]; simp
      have hran : ra ∉ (T.node u1 u2 u3 u4).keys := by
        rw [ukeys]; rintro (rfl | c | c)
        · exact D.sE raE
        · exact D.XE _ c raE
        · exact nE.2.2 _ c _ (by simp) rfl
      have hnl : (T.node u1 u2 u3 u4).keys.Nodup := by
        have := zl.nodup
        rw [List.nodup_append, List.nodup_append] at this
        exact this.1.2.1
      obtain ⟨m1, m2, m3, m4, m5⟩ := minSwap (q := q) (by rw [hq]; exact hs) e2 e4 (T.node u1 u2 u3 u4) (some ra) zl.sub hnl (by rw [k3]; rfl)
        (by rintro b ⟨⟩; exact hran)
        (by
          intro b hb b1 b2 b3
          refine e10 b ?_ b1 ?_ ?_ (fun c => absurd c b2) b3 ?_
          · rintro rfl; rcases (ukeys b).mp hb with c | c | c
            · exact D.zs c
            · exact D.zX c
            · exact D.zE (List.mem_append_left _ c)
          · rintro rfl; rcases (ukeys b).mp hb with c | c | c
            · exact b1 c
            · exact D.AX b laA c
            · exact D.AE b laA (List.mem_append_left _ c)
          · rintro rfl; exact hran hb
          · intro c
            obtain ⟨o1, o2, o3, o4, o5⟩ := D.out b (par_mem c.symm)
            rcases (ukeys b).mp hb with c | c | c
            · exact b1 c
            · exact o4 c
            · exact o5 (List.mem_append_left _ c))
        e9
      have hu2 : (T.node u1 u2 u3 u4).ptr = some u2 := rfl
      have := swap_finish zz hR hR' hd (h' := h') (root' := root') (by rw [e1]; rfl) e3 e5 e6 e7
        (by
          intro a a1 a2 a3 a4 a5
          have a6 : a ∉ (T.node u1 u2 u3 u4).keys := fun c => a4 (by rw [T.keys]; exact List.mem_append_left _ c)
          refine e10 a a1 a2 (fun c => a3 (c ▸ rfl)) ?_ (fun _ => a6) ?_ a5
          · rintro rfl; exact a4 (by simp [T.keys])
          · intro c; exact a6 ((ukeys a).mpr (Or.inr (Or.inl (ptr_mem c.symm))))) ?_
      · exact ⟨h', root', _, s, c, r, e, hR, hR', hd, this.1, this.2⟩
      · refine ⟨?_, m1, (Z.upR.mpr zr).sub.frame fun b hb => ?_⟩
        · rw [e8, m2, hu2]; simp
        · have bE : b ∈ d.post ++ ra :: r2.keys := by simp [hb]
          refine e10 b ?_ ?_ ?_ ?_ (fun _ => ?_) ?_ ?_
          · rintro rfl; exact D.zE bE
          · rintro rfl; exact D.sE bE
          · rintro rfl; exact D.AE b laA bE
          · rintro rfl; exact nE.2.1.1 hb
          · rw [ukeys]; rintro (rfl | c | c)
            · exact D.sE bE
            · exact D.XE _ c bE
            · exact nE.2.2 _ c b (by simp [hb]) rfl
          · intro c; exact D.XE b (ptr_mem c.symm) bE
          · intro c; exact (D.out b (par_mem c.symm)).2.2.2.2 bE
    cases d with
    | right l' q' qc' d' => simp [C.pre] at hd3
    | top =>
      cases hd1
      have hs : h u2 = some ⟨some ra, none, u4.ptr, u3⟩ := hs
      have hra : h ra = some ⟨some z, some u2, r2.ptr, rc⟩ := hra
      obtain ⟨h', root', e, e1, e2, e3, e4, e5, e6, e7, e8, e9⟩ := swap2 (root := root) hz hs hla hlm hra
        D.zs (fun e => D.zA (e ▸ laA)) (fun e => D.zE (e ▸ raE)) (fun e => D.sA (e ▸ laA)) (fun e => D.sE (e ▸ raE)) (fun e => D.AE la laA (e ▸ raE))
        (fun b hb => by obtain ⟨o1, o2, o3, o4, o5, o6, o7⟩ := hx b hb; exact ⟨o1, o2, o3, o4, o6⟩)
        (fun b hb => by obtain ⟨o1, o2, o3, o4, o5, o6, o7⟩ := hp b hb; exact ⟨o1, o2, o3, o4, o5, o7⟩)
      refine fin h' root' (some ra) rfl e e1 e2 (by rintro b n ⟨⟩ hb; rw [hla] at hb; cases hb; exact e3) e4 e5 e6 e7 (by rw [e8]; simp) ?_ ?_
      · rintro b n ⟨⟩ hb
        exfalso
        rw [k3] at hb
        simp only [C.post, List.append_nil, List.mem_cons] at hb
        rcases hb with c | c
        · exact D.sE (c ▸ raE)
        · exact D.XE _ c raE
      · intro a a1 a2 a3 a4 a5 a6 a7; exact e9 a a1 a2 a3 a4 a6 a7
    | left d' q qc qr =>
      have qE : q ∈ (C.left d' q qc qr).post ++ ra :: r2.keys := by simp [C.post]
      have qE' : q ∈ (C.left d' q qc qr).post := by simp [C.post]
      have hs : h s = some ⟨some q, none, r.ptr, c⟩ := hs
      have hq := (Z.upL.mp zs).sub.1
      have hra : h ra = some ⟨some z, some u2, r2.ptr, rc⟩ := hra
      have qra : ra ≠ q := fun e => nE.2.2 _ qE' ra (by simp) e.symm
      obtain ⟨h', root', e, e1, e2, e3, e4, e5, e6, e7, e8, e9, e10⟩ := swap3 (root := root) hz hs hla hlm hra hq
        D.zs (fun e => D.zA (e ▸ laA)) (fun e => D.zE (e ▸ raE)) (fun e => D.zE (e ▸ qE)) (fun e => D.sA (e ▸ laA)) (fun e => D.sE (e ▸ raE)) (fun e => D.sE (e ▸ qE))
        (fun e => D.AE la laA (e ▸ raE)) (fun e => D.AE la laA (e ▸ qE)) qra
        (fun b hb => by obtain ⟨o1, o2, o3, o4, o5, o6, o7⟩ := hx b hb; exact ⟨o1, o2, o3, o4, o6, fun e => o5 (e ▸ qE')⟩)
        (fun b hb => by obtain ⟨o1, o2, o3, o4, o5, o6, o7⟩ := hp b hb; exact ⟨o1, o2, o3, o4, o5, o7, fun e => o6 (e ▸ qE')⟩)
      have hu2s : u2 ≠ s := by
        rintro rfl
        have : u2 ∉ (C.left d' q qc qr).post := fun c => D.sE (List.mem_append_left _ c)
        have h0 : Z h root _ (T.node u1 u2 u3 u4) := zl
        have h1 := zl.sub.1
        rw [hs] at h1
        simp only [C.par_left, Option.some.injEq, Node.mk.injEq] at h1
        exact qra h1.1.symm
      refine fin h' root' (some q) rfl e e1 e2 (by rintro b n ⟨⟩ hb; rw [hla] at hb; cases hb; exact e3) e4 e5 e6 e7 (by rw [e8, if_neg hu2s]) ?_ ?_
      · rintro b n ⟨⟩ _ hb; rw [hq] at hb; cases hb; exact e9
      · intro a a1 a2 a3 a4 a5 a6 a7
        refine e10 a a1 a2 a3 a4 ?_ a6 a7
        rintro rfl
        exact a5 rfl (by rw [k3]; simp [C.post])

end Verif.Rb
