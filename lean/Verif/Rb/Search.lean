import Verif.Rb.Insert

/-!
Searching, walking and finding the place of a new node.
-/
namespace Verif.Rb

def T.height : T → Nat
  | .nil => 0
  | .node l _ _ r => max l.height r.height + 1

theorem C.height_plug (k : C) : ∀ t : T, k.depth + t.height ≤ (k.plug t).height := by
  induction k with
  | top => intro t; simp [C.depth, C.plug]
  | left k a c r ih => intro t; have := ih (.node t a c r); simp only [C.depth, C.plug, T.height] at *; omega
  | right l a c k ih => intro t; have := ih (.node l a c t); simp only [C.depth, C.plug, T.height] at *; omega

theorem C.height_mono (k : C) : ∀ {t t' : T}, t.height ≤ t'.height → (k.plug t).height ≤ (k.plug t').height := by
  induction k with
  | top => intro t t' h; exact h
  | left k a c r ih => intro t t' h; apply ih; simp only [T.height]; omega
  | right l a c k ih => intro t t' h; apply ih; simp only [T.height]; omega

/-- Keys are in order of `cmp`. -/
def Sorted (cmp : Nat → Nat → Int) (l : List Nat) : Prop := l.Pairwise fun x y => ¬ cmp y x < 0

/-- The comparison function is a strict weak order. -/
structure Weak (cmp : Nat → Nat → Int) : Prop where
  asymm : ∀ a b, cmp a b < 0 → ¬ cmp b a < 0
  cotrans : ∀ a b c, cmp a c < 0 → cmp a b < 0 ∨ cmp b c < 0

theorem find_spec {cmp : Nat → Int} {h : Heap} : ∀ {t : T} {p : Ptr} (fuel : Nat), Sub h p t → t.height < fuel →
    (t.keys.Pairwise fun x y => (cmp x < 0 → cmp y < 0) ∧ (cmp y > 0 → cmp x > 0)) →
    ∃ q, find cmp h fuel t.ptr = some q ∧ (∀ a, q = some a → a ∈ t.keys ∧ cmp a = 0) ∧ (q = none → ∀ a ∈ t.keys, cmp a ≠ 0) := by
  intro t
  induction t with
  | nil => intro p fuel _ hf _; obtain ⟨f, rfl⟩ : ∃ f, fuel = f + 1 := ⟨fuel - 1, by omega⟩; exact ⟨none, rfl, by simp, by simp [T.keys]⟩
  | node l a c r ihl ihr =>
    intro p fuel hs hf ho
    obtain ⟨f, rfl⟩ : ∃ f, fuel = f + 1 := ⟨fuel - 1, by omega⟩
    obtain ⟨h1, h2, h3⟩ := hs
    simp only [T.keys, List.pairwise_append, List.pairwise_cons, List.mem_cons] at ho
    simp only [T.height] at hf
    simp only [find, T.ptr_node, h1]
    by_cases h0 : cmp a = 0
    · exact ⟨some a, by simp [h0], by simp [T.keys, h0], by simp⟩
    · rw [if_neg h0]
      by_cases hlt : cmp a < 0
      · rw [if_pos hlt]
        obtain ⟨q, e, q1, q2⟩ := ihl f h2 (by omega) ho.1
        refine ⟨q, e, fun b hb => ⟨by simp [T.keys, (q1 b hb).1], (q1 b hb).2⟩, fun hq b hb => ?_⟩
        simp only [T.keys, List.mem_append, List.mem_cons] at hb
        rcases hb with hb | rfl | hb
        · exact q2 hq b hb
        · exact h0
        · have := (ho.2.1.1 b hb).1 hlt; omega
      · rw [if_neg hlt]
        obtain ⟨q, e, q1, q2⟩ := ihr f h3 (by omega) ho.2.1.2
        refine ⟨q, e, fun b hb => ⟨by simp [T.keys, (q1 b hb).1], (q1 b hb).2⟩, fun hq b hb => ?_⟩
        simp only [T.keys, List.mem_append, List.mem_cons] at hb
        rcases hb with hb | rfl | hb
        · have := (ho.2.2 b hb a (Or.inl rfl)).2 (by omega); omega
        · exact h0
        · exact q2 hq b hb

theorem leftmost_spec {h : Heap} {root : Ptr} : ∀ {l : T} {a c : Nat} {r : T} {k : C} (fuel : Nat), Z h root k (.node l a c r) →
    l.height < fuel → ∃ k' a' c' r', leftmost h fuel (some a) = some (some a') ∧ Z h root k' (.node .nil a' c' r') ∧
      a' :: r'.keys ++ k'.post = (T.node l a c r).keys ++ k.post ∧ k'.pre = k.pre ∧
      k'.plug (.node .nil a' c' r') = k.plug (.node l a c r) := by
  intro l
  induction l with
  | nil =>
    intro a c r k fuel z hf
    obtain ⟨f, rfl⟩ : ∃ f, fuel = f + 1 := ⟨fuel - 1, by omega⟩
    refine ⟨k, a, c, r, ?_, z, by simp [T.keys], rfl, rfl⟩
    simp [leftmost, z.deref]
  | node l b c' r' ih _ =>
    intro a c r k fuel z hf
    obtain ⟨f, rfl⟩ : ∃ f, fuel = f + 1 := ⟨fuel - 1, by omega⟩
    simp only [T.height] at hf
    obtain ⟨k', a', c'', r'', e, z', h1, h2, h3⟩ := ih f (Z.upL.mpr z) (by omega)
    refine ⟨k', a', c'', r'', ?_, z', ?_, h2, h3⟩
    · simp [leftmost, z.deref, e]
    · rw [h1]; simp [T.keys, C.post]

theorem climb_spec {h : Heap} {root : Ptr} : ∀ {k : C} {l : T} {a c : Nat} {r : T} (fuel : Nat), Z h root k (.node l a c r) →
    k.depth < fuel → ∃ q, climb h fuel (some a) = some q ∧ (k.post = [] ∧ q = none ∨
      ∃ k' l' b c' r', q = some b ∧ Z h root k' (.node l' b c' r') ∧ b :: r'.keys ++ k'.post = k.post ∧
        k'.plug (.node l' b c' r') = k.plug (.node l a c r)) := by
  intro k
  induction k with
  | top =>
    intro l a c r fuel z hf
    obtain ⟨f, rfl⟩ : ∃ f, fuel = f + 1 := ⟨fuel - 1, by omega⟩
    exact ⟨none, by simp [climb, z.deref], Or.inl ⟨rfl, rfl⟩⟩
  | left k p pc s ih =>
    intro l a c r fuel z hf
    obtain ⟨f, rfl⟩ : ∃ f, fuel = f + 1 := ⟨fuel - 1, by omega⟩
    have z' := Z.upL.mp z
    refine ⟨some p, ?_, Or.inr ⟨k, _, p, pc, s, rfl, z', rfl, rfl⟩⟩
    have hne : s.ptr ≠ some a := by
      refine fun e => ptr_ne (u := s) (a := a) ?_ e.symm
      have hn := z.nodup
      simp only [C.pre, C.post, T.keys, List.nodup_append, List.nodup_cons, List.mem_append, List.mem_cons] at hn
      grind
    have e1 : h p = some ⟨k.par, some a, s.ptr, pc⟩ := z'.sub.1
    simp [climb, z.deref, e1, hne]
  | right s p pc k ih =>
    intro l a c r fuel z hf
    obtain ⟨f, rfl⟩ : ∃ f, fuel = f + 1 := ⟨fuel - 1, by omega⟩
    have z' := Z.upR.mp z
    obtain ⟨q, e, hq⟩ := ih f z' (by simp only [C.depth] at hf; omega)
    refine ⟨q, ?_, hq⟩
    have e1 : h p = some ⟨k.par, s.ptr, some a, pc⟩ := z'.sub.1
    simp [climb, z.deref, e1, e]

theorem walkLoop_spec {h : Heap} {root : Ptr} {inner : Nat} {w : T} (hi : w.height < inner) :
    ∀ (fuel : Nat) {k : C} {l : T} {a c : Nat} {r : T}, Z h root k (.node l a c r) → k.plug (.node l a c r) = w →
      (a :: r.keys ++ k.post).length < fuel → walkLoop h inner fuel (some a) = some (a :: r.keys ++ k.post) := by
  intro fuel
  induction fuel with
  | zero => intro k l a c r _ _ hf; simp at hf
  | succ f ih =>
    intro k l a c r z hw hf
    have hh : k.depth + (T.node l a c r).height ≤ w.height := hw ▸ k.height_plug _
    simp only [T.height] at hh
    have d : h a = some ⟨k.par, l.ptr, r.ptr, c⟩ := z.sub.1
    simp only [walkLoop, d]
    cases r with
    | nil =>
      obtain ⟨q, e, hq⟩ := climb_spec inner z (by omega)
      simp only [T.ptr_nil, Option.isSome_none, Bool.false_eq_true, if_false, e]
      rcases hq with ⟨h1, rfl⟩ | ⟨k', l', b, c', r', rfl, z', h1, h2⟩
      · cases f with
        | zero => simp [T.keys, h1] at hf
        | succ f => simp [walkLoop, T.keys, h1]
      · rw [ih z' (h2.trans hw) (by rw [h1]; simp [T.keys] at hf ⊢; omega), h1]
        simp [T.keys]
    | node rl b rc rr =>
      simp only [T.height] at hh
      obtain ⟨k', a', c', r', e, z', h1, _, h3⟩ := leftmost_spec inner (Z.upR.mpr z) (by omega)
      simp only [T.ptr_node, Option.isSome_some, if_true, e]
      rw [ih z' (h3.trans hw) (by rw [h1]; simp [C.post] at hf ⊢; omega), h1]
      simp [C.post]

/-- The tree is at the root. -/
theorem walk_spec {h : Heap} {root : Ptr} {t : T} {fuel : Nat} (z : Z h root .top t) (h1 : t.height < fuel) (h2 : t.keys.length < fuel) :
    walk h fuel root = some t.keys := by
  have hr : root = t.ptr := z.csub
  cases t with
  | nil => subst hr; rfl
  | node l a c r =>
    subst hr
    obtain ⟨k', a', c', r', e, z', h3, _, h5⟩ := leftmost_spec fuel z (by simp only [T.height] at h1; omega)
    simp only [C.post, List.append_nil] at h3
    simp only [walk, T.ptr_node, e]
    rw [walkLoop_spec h1 fuel z' h5 (by rw [h3]; exact h2), h3]

theorem descend_spec {cmp : Nat → Nat → Int} (hc : Weak cmp) {h : Heap} {root : Ptr} {new : Nat} : ∀ {t : T} {l : T} {a c : Nat} {r : T} {k : C} (fuel : Nat),
    t = .node l a c r → Z h root k t → t.height ≤ fuel → Sorted cmp t.keys →
    (∀ x ∈ k.pre, ¬ cmp new x < 0) → (∀ x ∈ k.post, cmp new x < 0) →
    ∃ p b k', descend cmp h new fuel a = some (p, b) ∧ Z h root k' .nil ∧ k'.plug .nil = k.plug t ∧
      (∀ x ∈ k'.pre, ¬ cmp new x < 0) ∧ (∀ x ∈ k'.post, cmp new x < 0) ∧
      ((b = true ∧ ∃ k1 c1 r1, k' = .left k1 p c1 r1) ∨ (b = false ∧ ∃ k1 c1 l1, k' = .right l1 p c1 k1)) := by
  intro t
  induction t with
  | nil => intro l a c r k fuel e; cases e
  | node l a c r ihl ihr =>
    intro _ _ _ _ k fuel e z hf hs h1 h2
    cases e
    simp only [T.height] at hf
    obtain ⟨f, rfl⟩ : ∃ f, fuel = f + 1 := ⟨fuel - 1, by omega⟩
    have d : h a = some ⟨k.par, l.ptr, r.ptr, c⟩ := z.sub.1
    simp only [Sorted, T.keys, List.pairwise_append, List.pairwise_cons, List.mem_cons] at hs
    simp only [descend, d]
    by_cases hlt : cmp new a < 0
    · rw [if_pos hlt]
      have p2 : ∀ x ∈ (C.left k a c r).post, cmp new x < 0 := by
        intro x hx
        simp only [C.post, List.cons_append, List.mem_cons, List.mem_append] at hx
        rcases hx with rfl | hx | hx
        · exact hlt
        · rcases hc.cotrans new x a hlt with h | h
          · exact h
          · exact absurd h (hs.2.1.1 x hx)
        · exact h2 x hx
      cases l with
      | nil => exact ⟨a, true, .left k a c r, rfl, Z.upL.mpr z, rfl, h1, p2, Or.inl ⟨rfl, k, c, r, rfl⟩⟩
      | node l' b c' r' => exact ihl f rfl (Z.upL.mpr z) (by omega) hs.1 h1 p2
    · rw [if_neg hlt]
      have p1 : ∀ x ∈ (C.right l a c k).pre, ¬ cmp new x < 0 := by
        intro x hx
        simp only [C.pre, List.mem_append, List.mem_singleton] at hx
        rcases hx with hx | hx | rfl
        · exact h1 x hx
        · intro hh
          rcases hc.cotrans new a x hh with h | h
          · exact hlt h
          · exact hs.2.2 x hx a (Or.inl rfl) h
        · exact hlt
      cases r with
      | nil => exact ⟨a, false, .right l a c k, rfl, Z.upR.mpr z, rfl, p1, h2, Or.inr ⟨rfl, k, c, l, rfl⟩⟩
      | node l' b c' r' => exact ihr f rfl (Z.upR.mpr z) (by omega) hs.2.1.2 p1 h2

/-- A new node takes the place of a null pointer. -/
theorem Z.fill {h h' : Heap} {root : Ptr} {k : C} {a c : Nat} (z : Z h root k .nil) (ha : a ∉ k.pre ++ k.post)
    (hn : h' a = some ⟨k.par, none, none, c⟩) (hl : ∀ k1 p c1 r, k = .left k1 p c1 r → h' p = some ⟨k1.par, some a, r.ptr, c1⟩)
    (hr : ∀ k1 p c1 l, k = .right l p c1 k1 → h' p = some ⟨k1.par, l.ptr, some a, c1⟩)
    (hf : ∀ b ∈ k.pre ++ k.post, some b ≠ k.par → h' b = h b) :
    Z h' (if k.par = none then some a else root) k (.node .nil a c .nil) := by
  have hnd : (k.pre ++ k.post).Nodup := by simpa [T.keys] using z.nodup
  refine ⟨⟨hn, trivial, trivial⟩, ?_, ?_⟩
  · cases k with
    | top => simp [CSub]
    | left k1 p c1 r => exact z.csub.rechild hnd (fun c => C.noConfusion c) hf hl hr
    | right l p c1 k1 => exact z.csub.rechild hnd (fun c => C.noConfusion c) hf hl hr
  · simp only [T.keys, List.nil_append, List.nodup_append, List.mem_append, List.nodup_cons, List.mem_cons, List.not_mem_nil] at hnd ha ⊢
    grind

/-- Everything outside of the tree may differ. -/
theorem Z.frame {h h' : Heap} {root : Ptr} {t : T} (z : Z h root .top t) (hf : ∀ a ∈ t.keys, h' a = h a) : Z h' root .top t :=
  ⟨z.sub.frame hf, z.csub, z.nodup⟩

theorem Z.down {h : Heap} {root : Ptr} : ∀ {k : C} {t : T}, Z h root k t ↔ Z h root .top (k.plug t) := by
  intro k
  induction k with
  | top => intro t; rfl
  | left k a c r ih => intro t; rw [Z.upL, ih]; rfl
  | right l a c k ih => intro t; rw [Z.upR, ih]; rfl

theorem insertBinary_spec {cmp : Nat → Nat → Int} (hc : Weak cmp) {h : Heap} {root : Ptr} {t : T} {new fuel : Nat} {q : Ptr} (z : Z h root .top t)
    (hs : Sorted cmp t.keys) (hf : t.height ≤ fuel) (hn : new ∉ t.keys) (hh : h new = some ⟨q, none, none, 1⟩) :
    ∃ h' root' k, insertBinary cmp fuel h root new = some (h', root') ∧ Z h' root' k (.node .nil new 1 .nil) ∧ k.plug .nil = t ∧
      (∀ x ∈ k.pre, ¬ cmp new x < 0) ∧ (∀ x ∈ k.post, cmp new x < 0) ∧ Same h h' (new :: t.keys) := by
  have hr : root = t.ptr := z.csub
  cases t with
  | nil =>
    subst hr
    refine ⟨fun b => if b = new then some ⟨none, none, none, 1⟩ else h b, some new, .top, ?_, ⟨⟨by simp, trivial, trivial⟩, rfl, by simp [T.keys, C.pre, C.post]⟩,
      rfl, by simp [C.pre], by simp [C.post], ?_⟩
    · simp [insertBinary, setParent, modify, hh]
    · intro a ha; simp [T.keys] at ha; simp [ha]
  | node l a c r =>
    subst hr
    obtain ⟨p, b, k, e, z', h1, h2, h3, h4⟩ := descend_spec hc (new := new) fuel rfl z hf hs (by simp [C.pre]) (by simp [C.post])
    have hk : k.pre ++ k.post = (T.node l a c r).keys := by
      have := congrArg T.keys h1
      rw [C.keys_plug, C.keys_plug] at this
      simpa [C.pre, C.post, T.keys] using this
    rw [← hk] at hn
    simp only [T.ptr_node] at z'
    rcases h4 with ⟨rfl, k1, c1, r1, rfl⟩ | ⟨rfl, k1, c1, l1, rfl⟩
    · have hpn : new ≠ p := by rintro rfl; exact hn (by simp [C.pre, C.post])
      have hp : h p = some ⟨k1.par, none, r1.ptr, c1⟩ := z'.csub.1
      refine ⟨fun b => if b = new then some ⟨some p, none, none, 1⟩ else if b = p then some ⟨k1.par, some new, r1.ptr, c1⟩ else h b, some a, .left k1 p c1 r1,
        ?_, ?_, h1, h2, h3, ?_⟩
      · simp [insertBinary, e, setLeft, setParent, modify, hp, hpn, hh]
      · have := z'.fill (c := 1) (h' := fun b => if b = new then some ⟨some p, none, none, 1⟩ else if b = p then some ⟨k1.par, some new, r1.ptr, c1⟩ else h b)
          hn (by simp) (by rintro _ _ _ _ ⟨⟩; simp [hpn.symm]) (by rintro _ _ _ _ ⟨⟩)
          (by
            intro b hb hbp
            have hb1 : b ≠ new := by rintro rfl; exact hn hb
            have hb2 : b ≠ p := by rintro rfl; exact hbp rfl
            simp [hb1, hb2])
        simpa using this
      · intro x hx
        rw [← hk] at hx
        have hb1 : x ≠ new := by rintro rfl; simp at hx
        have hb2 : x ≠ p := by rintro rfl; simp [C.pre, C.post] at hx
        simp [hb1, hb2]
    · have hpn : new ≠ p := by rintro rfl; exact hn (by simp [C.pre, C.post])
      have hp : h p = some ⟨k1.par, l1.ptr, none, c1⟩ := z'.csub.1
      refine ⟨fun b => if b = new then some ⟨some p, none, none, 1⟩ else if b = p then some ⟨k1.par, l1.ptr, some new, c1⟩ else h b, some a, .right l1 p c1 k1,
        ?_, ?_, h1, h2, h3, ?_⟩
      · simp [insertBinary, e, setRight, setParent, modify, hp, hpn, hh]
      · have := z'.fill (c := 1) (h' := fun b => if b = new then some ⟨some p, none, none, 1⟩ else if b = p then some ⟨k1.par, l1.ptr, some new, c1⟩ else h b)
          hn (by simp) (by rintro _ _ _ _ ⟨⟩) (by rintro _ _ _ _ ⟨⟩; simp [hpn.symm])
          (by
            intro b hb hbp
            have hb1 : b ≠ new := by rintro rfl; exact hn hb
            have hb2 : b ≠ p := by rintro rfl; exact hbp rfl
            simp [hb1, hb2])
        simpa using this
      · intro x hx
        rw [← hk] at hx
        have hb1 : x ≠ new := by rintro rfl; simp at hx
        have hb2 : x ≠ p := by rintro rfl; simp [C.pre, C.post] at hx
        simp [hb1, hb2]

/-- The effect of an insertion on a balanced sorted tree. -/
theorem insert_spec {cmp : Nat → Nat → Int} (hc : Weak cmp) {h : Heap} {root : Ptr} {t : T} {new fuel m : Nat} {nn : Node} (z : Z h root .top t)
    (hs : Sorted cmp t.keys) (hb : Bal t m) (hbl : t.black) (hf : t.height + 2 ≤ fuel) (hn : new ∉ t.keys) (hh : h new = some nn) :
    ∃ h' root' t' m' x y, insert cmp fuel h root new = some (h', root') ∧ Z h' root' .top t' ∧ Bal t' m' ∧ t'.black ∧
      t.keys = x ++ y ∧ t'.keys = x ++ new :: y ∧ (∀ a ∈ x, ¬ cmp new a < 0) ∧ (∀ a ∈ y, cmp new a < 0) ∧ Same h h' (new :: t.keys) := by
  let h1 : Heap := fun b => if b = new then some ⟨nn.parent, none, none, 1⟩ else h b
  have z1 : Z h1 root .top t := z.frame fun a ha => by
    have : a ≠ new := by rintro rfl; exact hn ha
    simp [h1, this]
  obtain ⟨h2, root2, k, e2, z2, hk, hpre, hpost, s2⟩ := insertBinary_spec hc (fuel := fuel) z1 hs (by omega) hn (show h1 new = some ⟨nn.parent, none, none, 1⟩ by simp [h1])
  have hd : k.depth ≤ t.height := by have := k.height_plug .nil; rw [hk] at this; omega
  obtain ⟨n, hcb, hnil, _, _⟩ := Bal.unplug (k := k) (t := .nil) (m := m) (hk ▸ hb) (hk ▸ hbl)
  obtain ⟨h3, root3, k', l', a', c', r', e3, z3, hkeys, s3, hfix⟩ := insertLoop_spec fuel h2 root2 k .nil .nil new n z2 hcb hnil hnil trivial trivial (by omega)
  have hkt : t.keys = k.pre ++ k.post := by rw [← hk, C.keys_plug]; simp [T.keys]
  have e1 : insert cmp fuel h root new = (do
      if some a' = root3 then
        let h ← setRed h3 (some a') 0
        pure (h, root3)
      else pure (h3, root3)) := by
    have e0 : setRed h (some new) 1 = some (fun b => if b = new then some { nn with red := 1 } else h b) := by simp [setRed, modify, hh]
    have e01 : setLeft (fun b => if b = new then some { nn with red := 1 } else h b) (some new) none =
        some (fun b => if b = new then some { nn with red := 1, left := none } else h b) := by
      simp only [setLeft, modify, if_true, Option.some.injEq]; funext b; split <;> rfl
    have e02 : setRight (fun b => if b = new then some { nn with red := 1, left := none } else h b) (some new) none = some h1 := by
      simp only [setRight, modify, if_true, Option.some.injEq, h1]; funext b; split <;> rfl
    simp [insert, e0, e01, e02, e2, e3]
  have hsame : Same h h3 (new :: t.keys) := by
    intro x hx
    rw [s3 x (by simp only [C.keys_plug, T.keys, hkt, List.nil_append, List.mem_append, List.mem_cons, List.not_mem_nil] at hx ⊢; grind), s2 x hx]
    simp only [List.mem_cons, not_or] at hx
    simp [h1, hx.1]
  have hk3 : (k'.plug (.node l' a' c' r')).keys = k.pre ++ new :: k.post := by rw [hkeys, C.keys_plug]; simp [T.keys]
  rcases hfix with ⟨rfl, m', b1, b2⟩ | ⟨hnt, m', b1, b2⟩
  · obtain ⟨h4, e4, z4, f4⟩ := z3.setRed 0
    refine ⟨h4, root3, .node l' a' 0 r', m' + 1, k.pre, k.post, ?_, z4, .blk b1 b2, rfl, hkt, ?_, hpre, hpost, ?_⟩
    · rw [e1, if_pos (z3.root_iff.mpr rfl), e4]; rfl
    · simpa [C.plug, T.keys] using hk3
    · intro x hx
      rw [f4 x ?_, hsame x hx]
      rintro rfl
      have : x ∈ k.pre ++ new :: k.post := by rw [← hk3]; simp [C.plug, T.keys]
      apply hx; rw [hkt]; simp only [List.mem_append, List.mem_cons] at this ⊢; grind
  · refine ⟨h3, root3, _, m', k.pre, k.post, ?_, Z.down.mp z3, b1, b2, hkt, hk3, hpre, hpost, hsame⟩
    rw [e1, if_neg (fun e => hnt (z3.root_iff.mp e))]; rfl

end Verif.Rb
