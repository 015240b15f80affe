import Verif.Gc.PassProof

/-! # From one heap to the next -/

namespace Verif.Gc

/-- The objects `L` of `h` are in `h'` at the places which `f` says. -/
structure Carries (cfg : Cfg) (h : Heap) (L : Nat → Nat → Prop) (f : Ref → Ref) (h' : Heap)
    (L' : Nat → Nat → Prop) : Prop where
  moves : Moves f
  good : ∀ r, Good h L r → Good h' L' (f r)
  body : ∀ r b, Good h L r → bodyAt h r = some b →
    ∃ b', bodyAt h' (f r) = some b' ∧ SameBody cfg.addr f r (f r) b b'
  inj : ∀ r r', Good h L r → Good h L r' → f r = f r' → r = r'
  exact : ∀ x y n b, IsObj h' x y → h'.cell x y = some ⟨.own n, b⟩ →
    (∃ p s, L p s ∧ f (.heap p s) = .heap x y) ∨ b = .opaque 0

theorem SameBody.refs {addr : Ref → Int} {f : Ref → Ref} {s s' : Ref} {b b' : Body}
    (h : SameBody addr f s s' b b') : b'.refs = b.refs.map f := by
  cases b with
  | strRef r p d => obtain ⟨p', rfl, _⟩ := h; rfl
  | bufStore p d => obtain ⟨p', rfl, _⟩ := h; rfl
  | objStore items nt d =>
    cases h; simp [Body.map, Body.refs, List.flatMap_map, List.map_flatMap]
  | _ => cases h; simp [Body.map, Body.refs]

theorem SameBody.trans {addr : Ref → Int} {f f' : Ref → Ref} {s s' s'' : Ref} {b b' b'' : Body}
    (h : SameBody addr f s s' b b') (h' : SameBody addr f' s' s'' b' b'') :
    SameBody addr (fun r => f' (f r)) s s'' b b'' := by
  cases b with
  | strRef r p d =>
    obtain ⟨p', rfl, h1⟩ := h
    obtain ⟨p'', rfl, h2⟩ := h'
    exact ⟨p'', rfl, h2.trans h1⟩
  | bufStore p d =>
    obtain ⟨p', rfl, h1⟩ := h
    obtain ⟨p'', rfl, h2⟩ := h'
    exact ⟨p'', rfl, h2.trans h1⟩
  | objStore items nt d => cases h; cases h'; simp [SameBody, Body.map]
  | arrStore buf nx d => cases h; cases h'; simp [SameBody, Body.map]
  | stack buf d => cases h; cases h'; simp [SameBody, Body.map]
  | _ => cases h; cases h'; rfl

theorem SameBody.opaque {addr : Ref → Int} {f : Ref → Ref} {s s' : Ref} {d : Nat} {b' : Body}
    (h : SameBody addr f s s' (.opaque d) b') : b' = .opaque d := h

theorem SameBody.storage {addr : Ref → Int} {f : Ref → Ref} {s s' : Ref} {b b' : Body}
    (h : SameBody addr f s s' b b') (hs : b.isStorage) : b'.isStorage := by
  cases b with
  | bufStore p d => obtain ⟨p', rfl, _⟩ := h; trivial
  | bufExt p d => cases h; trivial
  | _ => exact absurd hs id

theorem SameBody.buffer {addr : Ref → Int} {f : Ref → Ref} {s s' : Ref} {b : Body} {d : Ref}
    {n : Nat} (h : SameBody addr f s s' b (.buffer d n)) : ∃ d0, b = .buffer d0 n ∧ d = f d0 := by
  cases b <;> simp [SameBody, Body.map] at h
  exact ⟨_, by rw [← h.2], h.1⟩

theorem SameBody.id (addr : Ref → Int) (s : Ref) (b : Body) :
    SameBody addr (fun r => r) s s b b := by
  cases b with
  | strRef r p d => exact ⟨p, rfl, rfl⟩
  | bufStore p d => exact ⟨p, rfl, rfl⟩
  | _ => simp [SameBody, Body.map]

section
variable {cfg : Cfg} {h h' h'' : Heap} {L L' L'' : Nat → Nat → Prop} {f f' : Ref → Ref}

theorem Moves.comp (m : Moves f) (m' : Moves f') : Moves fun r => f' (f r) := by
  refine ⟨fun v => by rw [m.val, m'.val], by rw [m.bad, m'.bad],
    fun k => by rw [m.huge, m'.huge], fun p s => ?_⟩
  obtain ⟨q, t, h1⟩ := m.heap p s
  rw [h1]
  exact m'.heap q t

theorem Carries.trans {R : List Ref} (c1 : Closed cfg h' L' R) (c : Carries cfg h L f h' L') (c' : Carries cfg h' L' f' h'' L'') :
    Carries cfg h L (fun r => f' (f r)) h'' L'' := by
  refine ⟨c.moves.comp c'.moves, fun r hr => c'.good _ (c.good r hr), ?_, ?_, ?_⟩
  · intro r b hr hb
    obtain ⟨b', h1, h2⟩ := c.body r b hr hb
    obtain ⟨b'', h3, h4⟩ := c'.body _ _ (c.good r hr) h1
    exact ⟨b'', h3, h2.trans h4⟩
  · intro r r' hr hr' he
    exact c.inj r r' hr hr' (c'.inj _ _ (c.good r hr) (c.good r' hr') he)
  · intro x y n b ho hb
    rcases c'.exact x y n b ho hb with ⟨p', s', hl', hf'⟩ | h1
    · obtain ⟨n', b', hb', _⟩ := L_own c1 hl'
      rcases c.exact p' s' n' b' (c1.obj p' s' hl') hb' with ⟨p, s, hl, hf⟩ | rfl
      · exact Or.inl ⟨p, s, hl, by rw [hf, hf']⟩
      · right
        obtain ⟨b'', h3, h4⟩ := c'.body (.heap p' s') (.opaque 0) hl' (by simp [bodyAt, hb'])
        rw [hf'] at h3
        simp only [bodyAt, hb, Option.some.injEq] at h3
        rw [h3, h4.opaque]
    · exact Or.inr h1

/-! ## The heap after a round -/

variable {h0 g h4 : Heap} {R : List Ref} {fp : List Nat} {B : Nat → Nat}
  {inc : Option (Nat × Nat)}

/-- The places to which objects of `L` have been moved. -/
def Img (L : Nat → Nat → Prop) (g : Heap) (x y : Nat) : Prop :=
  ∃ p s, L p s ∧ fwd g.cell p s = (x, y)

theorem updated_tracker {x y m : Nat} {b : Body} {r : Ref} {d : Hdr}
    (h : some (updated cfg f x y ⟨d, b⟩) = some ⟨.own m, .tracker r⟩) :
    d = .own m ∧ b = .tracker r := by
  simp only [updated, Option.some.injEq, Obj.mk.injEq] at h
  refine ⟨h.1, ?_⟩
  by_cases ht : b.isTracker = true
  · rw [if_pos ht] at h; exact h.2
  · rw [if_neg ht] at h
    have := moved_tracker cfg f (.heap x y) b
    rw [h.2] at this
    rw [← this] at ht
    exact absurd rfl ht

theorem Passed.good (c0 : Closed cfg h0 L R) (v : Evaced cfg h0 L g fp inc B)
    (q : Passed cfg g inc h4) (hi : ∀ x y, Img L g x y → L' x y) {r : Ref} (hr : Good h0 L r) :
    Good h4 L' (mv g r) := by
  cases r with
  | val v => trivial
  | bad => trivial
  | heap p s => exact hi _ _ ⟨p, s, hr, rfl⟩
  | huge k =>
    obtain ⟨X, p, s, n, hX, _, hXt, hl, hc⟩ := hr
    obtain ⟨n', b', x, y, h1, h2, h3, h4', _⟩ := v.kept c0 hl
    rw [hc] at h1
    cases h1
    have hg : g.huge k = some X := by
      rw [v.inv.huges p s n k (c0.obj p s hl) (Or.inl hl) hc]; exact hX
    refine ⟨_, x, y, n, q.huge x y n k X h4' h3 hg, rfl, ?_, hi x y ⟨p, s, hl, h2⟩, ?_⟩
    · rw [moved_tracker]; exact hXt
    · rw [q.cell x y h4', h3]; rfl

/-- What an object of the new heap is. -/
theorem Passed.is (c0 : Closed cfg h0 L R) (v : Evaced cfg h0 L g fp inc B)
    (q : Passed cfg g inc h4) {x y n : Nat} {b : Body} (ho : IsObj h4 x y)
    (hb : h4.cell x y = some ⟨.own n, b⟩) : b = .opaque 0 ∨
    ∃ p s b0, L p s ∧ fwd g.cell p s = (x, y) ∧ h0.cell p s = some ⟨.own n, b0⟩ ∧
      Dom g inc x y ∧ g.cell x y = some ⟨.own n, b0⟩ ∧
      b = (if b0.isTracker then b0 else b0.moved cfg (mv g) (.heap x y)) := by
  rcases (q.obj x y).1 ho with hd | ⟨off, hi, rfl⟩
  · obtain ⟨m, c, hc, _, h1⟩ := v.dom c0 hd
    have hq := q.cell x y hd
    rw [hc, hb] at hq
    simp only [Option.map_some, updated, Option.some.injEq, Obj.mk.injEq, Hdr.own.injEq] at hq
    obtain ⟨rfl, hq⟩ := hq
    rcases h1 with ⟨p, s, hl, hf, h0c⟩ | rfl
    · exact Or.inr ⟨p, s, c, hl, hf, h0c, hd, hc, hq⟩
    · exact Or.inl hq
  · rw [q.front x off hi] at hb
    cases hb
    exact Or.inl rfl

theorem Passed.closed (c0 : Closed cfg h0 L R) (v : Evaced cfg h0 L g fp inc B)
    (q : Passed cfg g inc h4) (hi : ∀ x y, Img L g x y → L' x y)
    (ho : ∀ x y, L' x y → IsObj h4 x y) : Closed cfg h4 L' (R.map (mv g)) := by
  have hhuge : ∀ {x y n k p s}, L p s → h0.cell p s = some ⟨.own n, .tracker (.huge k)⟩ →
      Dom g inc x y → g.cell x y = some ⟨.own n, .tracker (.huge k)⟩ →
      ∃ X, h0.huge k = some X ∧ X.body.isTracker = false ∧
        h4.huge k = some ⟨.heap x y, X.body.moved cfg (mv g) (.huge k)⟩ := by
    intro x y n k p s hl hc hd hg
    rcases c0.trackers p s n _ (c0.obj p s hl) hc with h1 | ⟨k', X, h1, hX, _, hXt⟩
    · cases h1
    · cases h1
      refine ⟨X, hX, hXt, q.huge x y n k X hd hg ?_⟩
      rw [v.inv.huges p s n k (c0.obj p s hl) (Or.inl hl) hc]; exact hX
  have htr : ∀ {x y n r}, IsObj h4 x y → h4.cell x y = some ⟨.own n, .tracker r⟩ →
      ∃ p s, L p s ∧ fwd g.cell p s = (x, y) ∧ h0.cell p s = some ⟨.own n, .tracker r⟩ ∧
        Dom g inc x y ∧ g.cell x y = some ⟨.own n, .tracker r⟩ := by
    intro x y n r hob hb
    rcases q.is c0 v hob hb with h1 | ⟨p, s, b0, h1, h2, h3, h4', h5, h6⟩
    · cases h1
    · obtain ⟨_, rfl⟩ : Hdr.own n = .own n ∧ b0 = .tracker r := by
        refine updated_tracker (cfg := cfg) (f := mv g) (x := x) (y := y) ?_
        rw [updated, h6]
      exact ⟨p, s, h1, h2, h3, h4', h5⟩
  refine ⟨q.pages, q.cur, ho, ?_, ?_, ?_, ?_, ?_, ?_⟩
  · intro r hr
    obtain ⟨r0, hr0, rfl⟩ := List.mem_map.1 hr
    exact q.good c0 v hi (c0.roots r0 hr0)
  · intro x y n b hl hb r hr
    rcases q.is c0 v (ho x y hl) hb with rfl | ⟨p, s, b0, h1, _, h3, h4', h5, rfl⟩
    · cases hr
    · by_cases ht : b0.isTracker = true
      · obtain ⟨o, rfl⟩ := isTracker_iff.1 ht
        have hr : r = o := by simpa [Body.isTracker, Body.refs] using hr
        subst hr
        have hg := c0.refs p s n _ h1 h3 r (by simp [Body.refs])
        have := q.good c0 v hi hg
        rcases c0.trackers p s n r (c0.obj p s h1) h3 with rfl | ⟨k, _, rfl, _⟩
        · exact this
        · exact this
      · rw [if_neg ht, moved_refs] at hr
        obtain ⟨r0, hr0, rfl⟩ := List.mem_map.1 hr
        exact q.good c0 v hi (c0.refs p s n _ h1 h3 r0 hr0)
  · intro x y n k X hl hb hX r hr
    obtain ⟨p, s, h1, _, h3, h4', h5⟩ := htr (ho x y hl) hb
    obtain ⟨X0, hX0, _, hX4⟩ := hhuge h1 h3 h4' h5
    rw [hX] at hX4
    cases hX4
    simp only [moved_refs] at hr
    obtain ⟨r0, hr0, rfl⟩ := List.mem_map.1 hr
    exact q.good c0 v hi (c0.hrefs p s n k X0 h1 h3 hX0 r0 hr0)
  · intro x y n r hob hb
    obtain ⟨p, s, h1, _, h3, h4', h5⟩ := htr hob hb
    rcases c0.trackers p s n r (c0.obj p s h1) h3 with rfl | ⟨k, X, rfl, hX, _, hXt⟩
    · exact Or.inl rfl
    · obtain ⟨X0, hX0, ht0, hX4⟩ := hhuge h1 h3 h4' h5
      refine Or.inr ⟨k, _, rfl, hX4, rfl, ?_⟩
      simp only [moved_tracker]
      exact ht0
  · intro x y n a d hl hb
    rcases q.is c0 v (ho x y hl) hb with h1 | ⟨p, s, b0, h1, _, h3, h4', h5, h6⟩
    · cases h1
    · by_cases ht : b0.isTracker = true
      · obtain ⟨o, rfl⟩ := isTracker_iff.1 ht
        rw [if_pos ht] at h6
        cases h6
      · rw [if_neg ht] at h6
        exact moved_store h6.symm
  · intro x y n k X a d hl hb hX hs
    obtain ⟨p, s, h1, _, h3, h4', h5⟩ := htr (ho x y hl) hb
    obtain ⟨X0, hX0, _, hX4⟩ := hhuge h1 h3 h4' h5
    rw [hX] at hX4
    cases hX4
    exact moved_store hs

theorem Passed.carries (c0 : Closed cfg h0 L R) (v : Evaced cfg h0 L g fp inc B)
    (q : Passed cfg g inc h4) (hi : ∀ x y, Img L g x y → L' x y) :
    Carries cfg h0 L (mv g) h4 L' := by
  refine ⟨mv_moves g, fun r hr => q.good c0 v hi hr, ?_, ?_, ?_⟩
  · intro r b hr hb
    cases r with
    | val v => cases hb
    | bad => cases hb
    | heap p s =>
      have hl : L p s := hr
      obtain ⟨n, b', x, y, h1, h2, h3, h4', _⟩ := v.kept c0 hl
      simp only [bodyAt, h1, Option.some.injEq] at hb
      subst hb
      have hc : h4.cell x y = some (updated cfg (mv g) x y ⟨.own n, b'⟩) := by
        rw [q.cell x y h4', h3]; rfl
      refine ⟨if b'.isTracker then b' else b'.moved cfg (mv g) (.heap x y),
        by simp only [mv, h2, bodyAt, hc, updated], ?_⟩
      simp only [mv, h2]
      by_cases ht : b'.isTracker = true
      · obtain ⟨o, rfl⟩ := isTracker_iff.1 ht
        rw [if_pos ht]
        rcases c0.trackers p s n o (c0.obj p s hl) h1 with rfl | ⟨k, _, rfl, _⟩
        · rfl
        · rfl
      · rw [if_neg ht]
        exact moved_same fun a d hs => c0.stores p s n a d hl (by rw [h1, hs])
    | huge k =>
      obtain ⟨X, p, s, n, hX, _, hXt, hl, hc⟩ := hr
      obtain ⟨n', b', x, y, h1, h2, h3, h4', _⟩ := v.kept c0 hl
      rw [hc] at h1
      cases h1
      have hg : g.huge k = some X := by
        rw [v.inv.huges p s n k (c0.obj p s hl) (Or.inl hl) hc]; exact hX
      have h5 := q.huge x y n k X h4' h3 hg
      simp only [bodyAt, hX, Option.map_some, Option.some.injEq] at hb
      subst hb
      refine ⟨X.body.moved cfg (mv g) (.huge k), by simp [mv, bodyAt, h5], ?_⟩
      exact moved_same fun a d hs => c0.hstores p s n k X a d hl hc hX hs
  · intro r r' hr hr' he
    cases r <;> cases r' <;> simp only [mv, reduceCtorEq, Ref.val.injEq, Ref.huge.injEq,
      Ref.heap.injEq] at he ⊢
    · exact he
    · rename_i p s p' s'
      exact v.inv.inj p s p' s' hr hr' (Prod.ext he.1 he.2)
    · exact he
  · intro x y n b hob hb
    rcases q.is c0 v hob hb with h1 | ⟨p, s, b0, h1, h2, _⟩
    · exact Or.inr h1
    · exact Or.inl ⟨p, s, h1, by simp only [mv, h2]⟩

/-! ## Marks after a round in which memory ran out -/

/-- The objects to be kept in the next round. -/
def Next (h : Heap) (x y : Nat) : Prop := IsObj h x y ∧ (h.mark x y).any = true

theorem Passed.next {o : Out} (c0 : Closed cfg h0 L R) (m0 : Marked h0 L)
    (v : Evaced cfg h0 L o.h o.fp o.inc B) (q : Passed cfg o.h o.inc h4)
    (k : OutOk cfg h0 L o) (he : o.err = true) :
    (∀ x y, Img L o.h x y → Next h4 x y) ∧ Marked h4 (Next h4) := by
  have hcol := k.colours he
  have hmU : ∀ x ∈ o.h.used, ∀ y, h4.mark x y = o.h.mark x y := by
    intro x hx y
    refine q.mark x y fun off hi => ?_
    exact absurd (Heap.mem_all.2 (Or.inl (Or.inl hx))) (v.part hi).2.2.1
  have hmP : ∀ P off, o.inc = some (P, off) → ∀ y, off ≤ y → h4.mark P y = h0.mark P y := by
    intro P off hi y hy
    rw [q.mark P y fun off' hi' => by rw [hi] at hi'; cases hi'; exact hy]
    exact (v.inv.keep P (by rw [hi]; simp)).2 y
  have hfP : ∀ P off, o.inc = some (P, off) → h4.flag P = false := by
    intro P off hi
    rw [q.flag, (v.inv.keep P (by rw [hi]; simp)).1]
    exact k.incFlag P off hi
  have hlow : ∀ P off y, o.inc = some (P, off) → (h4.mark P y).any = true → off ≤ y := by
    intro P off y hi ha
    rcases Nat.lt_or_ge y off with h | h
    · rw [q.mfront P off y hi h] at ha; cases ha
    · exact h
  have himg : ∀ x y, Img L o.h x y → Next h4 x y := by
    rintro x y ⟨p, s, hl, hf⟩
    obtain ⟨n, b, x', y', h1, h2, h3, hd, _⟩ := v.kept c0 hl
    rw [hf] at h2
    cases h2
    refine ⟨(q.obj x y).2 (Or.inl hd), ?_⟩
    rcases hd with hd | ⟨off, hi, hoff, hlt, ht⟩
    · have hu := ((isObj_cur v.cur x y).1 hd).1
      rw [hmU x hu]
      rcases hcol x (Or.inl hu) with h5 | h5
      · rw [h5.2]; rfl
      · obtain ⟨rfl, rfl⟩ := h5.own p s y hl hf
        rw [h5.mark]
        exact (m0.any p s h5.used (c0.obj p s hl).2.1 (c0.obj p s hl).2.2).2 hl
    · rw [hmP x off hi y hoff]
      obtain ⟨hn, hu, hall, _⟩ := v.part hi
      obtain ⟨_, _, hst⟩ := v.partTile c0 hi
      have ht0 := ((hst y (by omega)).1 ht).2
      refine (m0.any x y hu (by omega) ht0).2 ?_
      rcases v.inv.live p s hl with ⟨h5, _⟩ | ⟨_, _, m, c, x1, y1, _, h6, _, h7⟩
      · rw [fwd_own (h5.trans h1)] at hf
        cases hf
        exact hl
      · rw [fwd_moved h6] at hf
        cases hf
        exact absurd (Heap.mem_all.2 (Or.inl h7.1)) hall
  refine ⟨himg, ?_, ?_, ?_, ?_⟩
  · intro x y hx hy ht
    exact ⟨fun ha => ⟨⟨Or.inl hx, hy, ht⟩, ha⟩, fun h => h.2⟩
  · intro x y hx hy ha
    have hy : y < o.h.num x := by rw [← q.num x hx]; exact hy
    rcases (q.used x).1 hx with hu | ⟨off, hi⟩
    · rw [hmU x hu] at ha ⊢
      rcases hcol x (Or.inl hu) with h5 | h5
      · rw [h5.2]
      · rw [h5.mark] at ha ⊢
        exact m0.black x y h5.used (by rw [← h5.num]; exact hy) ha
    · have hoff := hlow x off y hi ha
      rw [hmP x off hi y hoff] at ha ⊢
      obtain ⟨hn, hu, _⟩ := v.part hi
      exact m0.black x y hu (by omega) ha
  · intro x y hx hfl hy ha
    have hy : y < o.h.num x := by rw [← q.num x hx]; exact hy
    suffices h : Dom o.h o.inc x y from ((q.obj x y).2 (Or.inl h)).2.2
    rcases (q.used x).1 hx with hu | ⟨off, hi⟩
    · left
      rw [hmU x hu] at ha
      rw [q.flag] at hfl
      rcases hcol x (Or.inl hu) with h5 | h5
      · rw [h5.1] at hfl; cases hfl
      · rw [h5.mark] at ha
        rw [h5.flag] at hfl
        refine ⟨Or.inl hu, hy, ?_⟩
        rw [h5.num] at hy
        exact (h5.start y (by omega)).2 (m0.start x y h5.used hfl hy ha)
    · right
      have hoff := hlow x off y hi ha
      rw [hmP x off hi y hoff] at ha
      obtain ⟨hn, hu, _⟩ := v.part hi
      obtain ⟨_, _, hst⟩ := v.partTile c0 hi
      refine ⟨off, hi, hoff, hy, (hst y (by omega)).2 ⟨hoff, ?_⟩⟩
      exact m0.start x y hu (k.incFlag x off hi) (by omega) ha
  · intro x y hx hfl hy
    have hy : y < o.h.num x := by rw [← q.num x hx]; exact hy
    rcases (q.used x).1 hx with hu | ⟨off, hi⟩
    · rw [hmU x hu]
      rw [q.flag] at hfl
      rcases hcol x (Or.inl hu) with h5 | h5
      · rw [h5.2]; rfl
      · rw [h5.mark]
        rw [h5.flag] at hfl
        exact m0.full x y h5.used hfl (by rw [← h5.num]; exact hy)
    · rw [hfP x off hi] at hfl; cases hfl

/-- Pages which may still be evacuated. -/
def Heap.todo (h : Heap) : List Nat := h.used.filter fun p => !h.flag p

theorem length_le_of_subset : ∀ {l m : List Nat}, l.Nodup → (∀ x ∈ l, x ∈ m) → l.length ≤ m.length
  | [], _, _, _ => Nat.zero_le _
  | a :: l, m, hn, hs => by
    have hn := List.nodup_cons.1 hn
    have ha := hs a List.mem_cons_self
    have := length_le_of_subset (l := l) (m := m.erase a) hn.2 fun x hx =>
      (List.mem_erase_of_ne fun (h : x = a) => hn.1 (h ▸ hx)).2 (hs x (List.mem_cons_of_mem _ hx))
    rw [List.length_erase_of_mem ha] at this
    have := List.length_pos_of_mem ha
    simp only [List.length_cons]
    omega

theorem Passed.fewer {o : Out}
    (v : Evaced cfg h0 L o.h o.fp o.inc B) (q : Passed cfg o.h o.inc h4)
    (k : OutOk cfg h0 L o) (he : o.err = true) (hf : o.fp ≠ []) :
    h4.todo.length < h0.todo.length := by
  have hnd : h4.used.Nodup := by
    have := q.pages.nodup
    rw [q.cur] at this
    exact (List.nodup_append.1 this).1
  have hsub : ∀ x ∈ h4.todo, x ∈ h0.todo ∧ x ∉ o.fp := by
    intro x hx
    obtain ⟨hx, hfl⟩ := List.mem_filter.1 hx
    have hfl : h4.flag x = false := by simpa using hfl
    rcases (q.used x).1 hx with hu | ⟨off, hi⟩
    · refine ⟨List.mem_filter.2 ?_, fun hfp => ?_⟩
      · rw [q.flag] at hfl
        rcases k.colours he x (Or.inl hu) with h5 | h5
        · rw [h5.1] at hfl; cases hfl
        · rw [h5.flag] at hfl
          exact ⟨h5.used, by simp [hfl]⟩
      · exact v.inv.apart x (List.mem_append.2 (Or.inr hfp)) (Heap.mem_all.2 (Or.inl (Or.inl hu)))
    · obtain ⟨_, hu, _, hfp, _⟩ := v.part hi
      exact ⟨List.mem_filter.2 ⟨hu, by simp [k.incFlag x off hi]⟩, hfp⟩
  have h1 : (h4.todo ++ o.fp).length ≤ h0.todo.length := by
    refine length_le_of_subset (List.nodup_append.2 ⟨hnd.filter _, ?_, ?_⟩) ?_
    · exact (List.nodup_append.1 v.inv.out).2.1
    · rintro a ha b hb rfl
      exact (hsub a ha).2 hb
    · intro x hx
      rcases List.mem_append.1 hx with hx | hx
      · exact (hsub x hx).1
      · exact List.mem_filter.2 ⟨v.inv.orig x (List.mem_append.2 (Or.inr hx)), by simp [k.fp x hx]⟩
  rw [List.length_append] at h1
  have := List.length_pos_iff.2 hf
  omega

end

/-! ## All rounds -/

section
variable {cfg : Cfg}

/-- The calls `l` are those of the objects not to be kept. -/
def Called (h0 : Heap) (L : Nat → Nat → Prop) (l : List (Ref × Nat)) : Prop :=
  (∀ e ∈ l, ∃ p s, IsObj h0 p s ∧ ¬ L p s ∧ Owes h0 p s e) ∧
  (∀ p s e, IsObj h0 p s → ¬ L p s → Owes h0 p s e → e ∈ l) ∧ (NoMod h0 L → l.Nodup)

theorem Evaced.called {h0 g : Heap} {R : List Ref} {fp : List Nat} {B : Nat → Nat}
    {inc : Option (Nat × Nat)} (c0 : Closed cfg h0 L R) (v : Evaced cfg h0 L g fp inc B) :
    ∃ l, g.log = h0.log ++ l ∧ Called h0 L l := by
  obtain ⟨l, h1, h2⟩ := v.inv.calls
  refine ⟨l, h1, ?_, ?_, h2.once⟩
  · intro e he
    obtain ⟨p, s, h3, h4, h5, _⟩ := h2.sound e he
    exact ⟨p, s, h3, h4, h5⟩
  · intro p s e h3 h4 h5
    refine h2.all p s e h3 h4 h5 fun hp => ?_
    rcases List.mem_append.1 hp with h6 | h6
    · right
      cases hi : inc.map Prod.fst with
      | none => rw [hi] at h6; cases h6
      | some q =>
        rw [hi] at h6
        simp only [Option.toList, List.mem_singleton] at h6
        rw [h6]
    · left
      rw [v.fp p h6]
      exact h3.2.1

theorem pass_spec (hu : 0 < cfg.unused) {h0 : Heap} {L : Nat → Nat → Prop} {i : Inst}
    (c0 : Closed cfg h0 L i.kept) (m0 : Marked h0 L) :
    ∃ h4 f err freed L', pass cfg h0 i = some (h4, (i.move f).keepTwo i, err, freed) ∧
      Carries cfg h0 L f h4 L' ∧ Closed cfg h4 L' (i.kept.map f) ∧
      (err = true → Marked h4 L' ∧ (freed = true → h4.todo.length < h0.todo.length)) ∧
      ∃ l, h4.log = h0.log ++ l ∧ Called h0 L l := by
  obtain ⟨o, ho, k⟩ := evacPages_spec c0 m0 hu h0.used { h0 with used := [] } [] (fun _ => 0)
    (by rw [List.append_nil]; exact EInv.start c0) (by simp) (by simp) (by simp)
  obtain ⟨B, e, hB1, hB2⟩ := k.inv
  have v : Evaced cfg h0 L o.h o.fp o.inc B :=
    ⟨e, k.cur, hB1, fun p s hi => ⟨hB2 p s hi, (k.inc p s hi).1, (k.inc p s hi).2.1⟩⟩
  obtain ⟨h1, h2, hh1, hi1, hh2, q⟩ := finish_spec c0 v rfl
  have hp : pass cfg h0 i =
      some (reclaim h2 o.fp, (i.move (mv o.h)).keepTwo i, o.err, !o.fp.isEmpty) := by
    unfold pass
    simp only [ho, hh1, hi1, hh2]
  have hdom : ∀ x y, Img L o.h x y → IsObj (reclaim h2 o.fp) x y := by
    rintro x y ⟨p, s, hl, hf⟩
    obtain ⟨_, _, x', y', _, h3, _, h5, _⟩ := v.kept c0 hl
    rw [hf] at h3
    cases h3
    exact (q.obj x y).2 (Or.inl h5)
  have hcall : ∃ l, (reclaim h2 o.fp).log = h0.log ++ l ∧ Called h0 L l := by
    rw [q.log]; exact v.called c0
  by_cases he : o.err = true
  · obtain ⟨n1, n2⟩ := q.next c0 m0 v k he
    refine ⟨_, _, _, _, Next (reclaim h2 o.fp), hp, q.carries c0 v n1,
      q.closed c0 v n1 fun x y h => h.1, fun _ => ⟨n2, fun hf => ?_⟩, hcall⟩
    refine q.fewer v k he fun h => ?_
    rw [h] at hf
    cases hf
  · exact ⟨_, _, _, _, Img L o.h, hp, q.carries c0 v fun _ _ h => h,
      q.closed c0 v (fun _ _ h => h) hdom, fun h => absurd h he, hcall⟩

/-- Nothing is left to be finalized. -/
theorem Carries.quiet {R : List Ref} (c : Carries cfg h L f h' L') (c1 : Closed cfg h' L' R)
    {p s : Nat} (ho : IsObj h' p s) (hl : ¬ L' p s) (e : Ref × Nat) : ¬ Owes h' p s e := by
  intro how
  obtain ⟨n, b, hb, _⟩ := c1.pages.obj ho
  rcases c.exact p s n b ho hb with ⟨p', s', h1, h2⟩ | rfl
  · have h3 := c.good (.heap p' s') h1
    rw [h2] at h3
    exact hl h3
  · rcases how with ⟨m, d, h1, h2, _⟩ | ⟨m, k, x, h1, _⟩
    · rw [hb] at h1
      cases h1
      cases h2
    · rw [hb] at h1
      cases h1

theorem move_comp (i : Inst) (f f' : Ref → Ref) :
    (((i.move f).keepTwo i).move f').keepTwo ((i.move f).keepTwo i) =
      (i.move fun r => f' (f r)).keepTwo i := by
  simp only [Inst.move, Inst.keepTwo, Protos.move, Mods.move, List.map_map]
  congr 1
  · refine List.map_congr_left fun t _ => ?_
    cases t <;> rfl
  · refine List.map_congr_left fun c _ => ?_
    simp [Ctx.move]

theorem passes_spec (hu : 0 < cfg.unused) :
    ∀ (n : Nat) (h0 : Heap) (L : Nat → Nat → Prop) (i : Inst), Closed cfg h0 L i.kept →
      Marked h0 L → h0.todo.length < n →
      ∃ h' f ok L', passes cfg n h0 i = some (h', (i.move f).keepTwo i, ok) ∧
        Carries cfg h0 L f h' L' ∧ Closed cfg h' L' (i.kept.map f) ∧
        ∃ l, h'.log = h0.log ++ l ∧ Called h0 L l
  | 0, _, _, _, _, _, h => absurd h (Nat.not_lt_zero _)
  | n + 1, h0, L, i, c0, m0, hn => by
    obtain ⟨h1, f, err, freed, L1, hp, r1, c1, hm, l, hl, hcl⟩ := pass_spec hu c0 m0
    unfold passes
    simp only [hp]
    by_cases he : err = true
    · obtain ⟨m1, hf⟩ := hm he
      rw [if_pos he]
      by_cases hfr : freed = true
      · rw [if_pos hfr]
        have hlt := hf hfr
        obtain ⟨h', f', ok, L', h3, r3, c3, l', hl', hcl'⟩ := passes_spec hu n h1 L1 ((i.move f).keepTwo i)
          (by rw [kept_move]; exact c1) m1 (by omega)
        refine ⟨h', _, ok, L', ?_, r1.trans c1 r3, ?_, l, ?_, hcl⟩
        · rw [h3, move_comp]
        · rw [kept_move, List.map_map] at c3
          exact c3
        · have : l' = [] := by
            cases l' with
            | nil => rfl
            | cons e l' =>
              obtain ⟨p, s, h4, h5, h6⟩ := hcl'.1 e List.mem_cons_self
              exact absurd h6 (r1.quiet c1 h4 h5 e)
          rw [hl', hl, this, List.append_nil]
      · rw [if_neg hfr]
        exact ⟨h1, f, false, L1, rfl, r1, c1, l, hl, hcl⟩
    · rw [if_neg he]
      exact ⟨h1, f, true, L1, rfl, r1, c1, l, hl, hcl⟩

end

end Verif.Gc
