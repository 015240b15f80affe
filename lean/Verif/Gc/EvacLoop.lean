import Verif.Gc.EvacSteps

/-! # Moving objects: the loops -/

namespace Verif.Gc

section
variable {cfg : Cfg} {h0 h h' : Heap} {L : Nat → Nat → Prop} {R : List Ref} {O : List Nat}
  {B : Nat → Nat} {inc : Option Nat}

theorem EInv.num_eq (e : EInv cfg h0 L h O B inc) {p : Nat} (hp : p ∈ O)
    (hB : B p < h0.num p ∨ B p = 0) : h.num p = h0.num p := by
  rcases e.num p hp with h1 | ⟨h1, _, h3⟩
  · exact h1
  · omega

/-- Evacuation of one object. -/
theorem evacOne_spec (c0 : Closed cfg h0 L R) (e : EInv cfg h0 L h O B none) {p n : Nat}
    {b : Body} (hp : p ∈ O) (hlt : B p < h0.num p) (hl : L p (B p))
    (hb : h0.cell p (B p) = some ⟨.own n, b⟩) :
    (∃ h', evacOne cfg h p (B p) = some (h', true) ∧
      EInv cfg h0 L h' O (setNum B p (B p + n)) none) ∨
    ∃ h', evacOne cfg h p (B p) = some (h', false) ∧ EInv cfg h0 L h' O B none ∧
      h'.cur = none := by
  obtain ⟨n', b', hb', hn, hle, hspp, _, _⟩ := e.next c0 hp hlt
  rw [hb] at hb'
  cases hb'
  have hc : h.cell p (B p) = some ⟨.own n, b⟩ := by
    rw [e.same p hp (by simp) (B p) (Nat.le_refl _) hlt, hb]
  unfold evacOne
  rcases alloc_spec e.lists hspp with ⟨h1, q, t, ha, a⟩ | ⟨h1, ha, d⟩
  · left
    simp only [hc, ha]
    exact ⟨_, rfl, e.move c0 hp hlt hl hb a rfl⟩
  · right
    simp only [hc, ha]
    exact ⟨h1, rfl, e.denied d, d.cur⟩

/-- The lists of pages to be given back only shrink while objects are moved. -/
theorem evacTry_spec (c0 : Closed cfg h0 L R) {p n : Nat} {todo fp : List Nat}
    (e : EInv cfg h0 L h (p :: (todo ++ fp)) B none)
    {b : Body} (hlt : B p < h0.num p) (hl : L p (B p))
    (hb : h0.cell p (B p) = some ⟨.own n, b⟩) :
    ∃ h' fp', (∀ x ∈ fp', x ∈ fp) ∧
      ((evacTry cfg h p (B p) fp = some (h', fp', true) ∧
        EInv cfg h0 L h' (p :: (todo ++ fp')) (setNum B p (B p + n)) none) ∨
      (evacTry cfg h p (B p) fp = some (h', fp', false) ∧
        EInv cfg h0 L h' (p :: (todo ++ fp')) B none ∧ h'.cur = none)) := by
  have hp : ∀ l, p ∈ p :: (todo ++ l) := fun _ => List.mem_cons_self
  unfold evacTry
  rcases evacOne_spec c0 e (hp fp) hlt hl hb with ⟨h1, he, e1⟩ | ⟨h1, he, e1, hcur⟩
  · exact ⟨h1, fp, fun _ h => h, Or.inl ⟨by simp only [he], e1⟩⟩
  · simp only [he]
    have e2 := e1.release
    have hnum : (release cfg h1).num = h1.num := (release_same cfg h1).num
    generalize hg : release cfg h1 = g at e2 hnum
    have hgcur : g.cur = none := by rw [← hg]; exact release_cur cfg h1
    have e3 : EInv cfg h0 L (unlock g fp).1 (p :: (todo ++ (unlock g fp).2.1)) B none := by
      refine e2.drop (D := fp.filter fun p => g.num p = 0) ?_ ?_ ?_
      · simp only [unlock]
        have hsp : ((fp.filter fun p => decide (g.num p = 0)) ++
            (fp.filter fun p => decide (g.num p ≠ 0))).Perm fp := by
          have := List.filter_append_perm (fun p => decide (g.num p = 0)) fp
          refine List.Perm.trans (List.Perm.append_left _ ?_) this
          rw [List.filter_congr]
          intro x _
          simp
        refine List.perm_middle.trans (List.Perm.cons _ ?_)
        rw [← List.append_assoc]
        refine (List.Perm.append_right _ List.perm_append_comm).trans ?_
        rw [List.append_assoc]
        exact List.Perm.append_left _ hsp
      · intro x hx s hls
        obtain ⟨hx1, hx2⟩ := List.mem_filter.1 hx
        have hx2 : g.num x = 0 := by simpa using hx2
        have hxO : x ∈ p :: (todo ++ fp) :=
          List.mem_cons_of_mem _ (List.mem_append.2 (Or.inr hx1))
        rcases e2.num x hxO with h1 | ⟨_, h1, _⟩
        · have := (c0.obj x s hls).2.1
          omega
        · exact h1 s hls
      · intro x hx s ho
        obtain ⟨hx1, hx2⟩ := List.mem_filter.1 hx
        have hx2 : g.num x = 0 := by simpa using hx2
        have hxO : x ∈ p :: (todo ++ fp) :=
          List.mem_cons_of_mem _ (List.mem_append.2 (Or.inr hx1))
        have h2 := ho.2.1
        rcases e2.num x hxO with h1 | ⟨_, _, h1⟩ <;> omega
    have hsub : ∀ x ∈ (unlock g fp).2.1, x ∈ fp := fun x hx => (List.mem_filter.1 hx).1
    have hucur : (unlock g fp).1.cur = none := hgcur
    generalize unlock g fp = u at e3 hsub hucur
    by_cases hu : u.2.2 = true
    · simp only [if_pos hu]
      rcases evacOne_spec c0 e3 (hp _) hlt hl hb with ⟨h2, he2, e4⟩ | ⟨h2, he2, e4, hcur2⟩
      · exact ⟨h2, u.2.1, hsub, Or.inl ⟨by simp only [he2], e4⟩⟩
      · exact ⟨h2, u.2.1, hsub, Or.inr ⟨by simp only [he2], e4, hcur2⟩⟩
    · simp only [if_neg hu]
      exact ⟨u.1, u.2.1, hsub, Or.inr ⟨rfl, e3, hucur⟩⟩

/-- How the loop over the objects of a page ends. -/
def LoopOk (cfg : Cfg) (h0 : Heap) (L : Nat → Nat → Prop) (p : Nat) (todo fp : List Nat)
    (B : Nat → Nat) (n : Nat) : Loop → Prop
  | .done h' n' fp' => (∀ x ∈ fp', x ∈ fp) ∧ ∃ B', (∀ x, x ≠ p → B' x = B x) ∧
      EInv cfg h0 L h' (p :: (todo ++ fp')) B' none ∧ B' p = h0.num p ∧ n ≤ n' ∧
      (n' = n → ∀ x, B p ≤ x → ¬ L p x)
  | .stop h' s fp' => (∀ x ∈ fp', x ∈ fp) ∧ ∃ B', (∀ x, x ≠ p → B' x = B x) ∧
      EInv cfg h0 L h' (p :: (todo ++ fp')) B' none ∧ B' p = s ∧ s < h0.num p ∧ h'.cur = none

theorem evacObjs_spec (c0 : Closed cfg h0 L R) (m0 : Marked h0 L) {p : Nat}
    {todo : List Nat} : ∀ (f : Nat) (h : Heap) (B : Nat → Nat) (n : Nat) (fp : List Nat),
      h0.num p - B p ≤ f → EInv cfg h0 L h (p :: (todo ++ fp)) B none →
      ∃ r, evacObjs cfg p (h0.num p) f h (B p) n fp = some r ∧
        LoopOk cfg h0 L p todo fp B n r := by
  intro f
  induction f with
  | zero =>
    intro h B n fp hf e
    have hle := (e.bound p List.mem_cons_self).1
    refine ⟨.done h n fp, ?_, fun _ h => h, B, fun _ _ => rfl, e, by omega, Nat.le_refl _, ?_⟩
    · unfold evacObjs
      rw [if_neg (by omega)]
    · intro _ x hx hl
      have := (c0.obj p x hl).2.1
      omega
  | succ f ih =>
    intro h B n fp hf e
    have hp : p ∈ p :: (todo ++ fp) := List.mem_cons_self
    have hle := (e.bound p hp).1
    unfold evacObjs
    by_cases hse : B p < h0.num p
    · obtain ⟨z, b, hb, hz, hzle, _, _, ho⟩ := e.next c0 hp hse
      have hc : h.cell p (B p) = some ⟨.own z, b⟩ := by
        rw [e.same p hp (by simp) (B p) (Nat.le_refl _) hse, hb]
      have hsz : sizeAt h p (B p) = some z := by simp [sizeAt, hc]
      have hchk : ¬ (z = 0 ∨ h0.num p < B p + z) := by omega
      have hmk : h.mark p (B p) = h0.mark p (B p) := (e.keep p hp).2 _
      have hBs : setNum B p (B p + z) p = B p + z := setNum_same _ _ _
      have hBn : ∀ x, x ≠ p → setNum B p (B p + z) x = B x := fun x hx => setNum_ne _ _ hx
      have hskip : ∀ x, B p ≤ x → L p x → x = B p ∨ B p + z ≤ x := by
        intro x hx hl
        rcases Nat.eq_or_lt_of_le hx with h1 | h1
        · exact Or.inl h1.symm
        · exact Or.inr (ho.2.2.no_inside (c0.obj p x hl).2.2 hb h1)
      simp only [if_pos hse, hsz, if_neg hchk, hmk]
      by_cases hl : L p (B p)
      · have hany := (m0.any p (B p) (e.orig p hp) hse ho.2.2).2 hl
        have hblk := m0.black p (B p) (e.orig p hp) hse hany
        simp only [if_pos hany, if_pos hblk]
        obtain ⟨h1, fp1, hsub, hr⟩ := evacTry_spec c0 e hse hl hb
        rcases hr with ⟨he, e1⟩ | ⟨he, e1, hcur⟩
        · simp only [he]
          obtain ⟨r, hr, hok⟩ := ih h1 (setNum B p (B p + z)) (n + 1) fp1
            (by rw [hBs]; omega) e1
          rw [hBs] at hr
          refine ⟨r, hr, ?_⟩
          cases r with
          | done h' n' fp' =>
            obtain ⟨s1, B', s2, s3, s4, s5, s6⟩ := hok
            refine ⟨fun x hx => hsub x (s1 x hx), B', fun x hx => (s2 x hx).trans (hBn x hx),
              s3, s4, by omega, fun h => by omega⟩
          | stop h' s fp' =>
            obtain ⟨s1, B', s2, s3⟩ := hok
            exact ⟨fun x hx => hsub x (s1 x hx), B', fun x hx => (s2 x hx).trans (hBn x hx), s3⟩
        · simp only [he]
          exact ⟨_, rfl, hsub, B, fun _ _ => rfl, e1, rfl, hse, hcur⟩
      · have hany : ¬ (h0.mark p (B p)).any = true := by
          rw [m0.any p (B p) (e.orig p hp) hse ho.2.2]; exact hl
        have hF : Final h b := by
          rintro r rfl
          rcases c0.trackers p (B p) z r ho hb with rfl | ⟨k, x, rfl, hx, _, hxt⟩
          · exact Or.inl rfl
          · refine Or.inr ⟨k, x, rfl, ?_, hxt⟩
            rw [e.huges p (B p) z k ho (Or.inr ⟨hp, by simp, Nat.le_refl _⟩) hb]; exact hx
        obtain ⟨h1, hh1, fin⟩ := finalize_spec hc hF
        simp only [if_neg hany, hh1]
        obtain ⟨r, hr, hok⟩ := ih h1 (setNum B p (B p + z)) n fp
          (by rw [hBs]; omega) (e.final c0 hp hse hl hb fin)
        rw [hBs] at hr
        refine ⟨r, hr, ?_⟩
        cases r with
        | done h' n' fp' =>
          obtain ⟨s1, B', s2, s3, s4, s5, s6⟩ := hok
          refine ⟨s1, B', fun x hx => (s2 x hx).trans (hBn x hx), s3, s4, s5, ?_⟩
          intro he x hx hlx
          rcases hskip x hx hlx with rfl | h2
          · exact hl hlx
          · exact s6 he x (by rw [hBs]; exact h2) hlx
        | stop h' s fp' =>
          obtain ⟨s1, B', s2, s3⟩ := hok
          exact ⟨s1, B', fun x hx => (s2 x hx).trans (hBn x hx), s3⟩
    · simp only [if_neg hse]
      refine ⟨_, rfl, fun _ h => h, B, fun _ _ => rfl, e, by omega, Nat.le_refl _, ?_⟩
      intro _ x hx hl
      have := (c0.obj p x hl).2.1
      omega

/-! ## Pages -/

/-- All objects of the page are to be seen as kept. -/
def Full (h : Heap) (q : Nat) : Prop := h.flag q = true ∧ ∀ s, h.mark q s = ⟨false, true⟩

/-- The page is as before, but for objects not to be kept. -/
structure Back (h0 : Heap) (L : Nat → Nat → Prop) (h : Heap) (q : Nat) : Prop where
  used : q ∈ h0.used
  flag : h.flag q = h0.flag q
  mark : ∀ s, h.mark q s = h0.mark q s
  num : h.num q = h0.num q
  start : ∀ x, x ≤ h0.num q → (Tile (h.cell q) 0 x ↔ Tile (h0.cell q) 0 x)
  live : ∀ x, L q x → h.cell q x = h0.cell q x
  own : ∀ p s t, L p s → fwd h.cell p s = (q, t) → p = q ∧ s = t

/-- Every page is of one of these two kinds. -/
def Colours (h0 : Heap) (L : Nat → Nat → Prop) (h : Heap) : Prop :=
  ∀ q, h.inUse q → Full h q ∨ Back h0 L h q

/-- A page taken from the list can be made opaque. -/
theorem opaque_page (c0 : Closed cfg h0 L R) (m0 : Marked h0 L)
    (e : EInv cfg h0 L h O B inc) {p : Nat} (hp : p ∈ O) (hi : inc ≠ some p)
    (hn : h.num p = h0.num p) :
    ∃ h', opaqueObjs h p (h.num p) (h.num p) 0 = some h' ∧ OPost h0 L h h' p (B p) 0 := by
  rw [hn]
  exact opaque_spec c0 m0 (e.orig p hp) _ h 0 (by omega) (Nat.zero_le _) (.nil _)
    (e.keep p hp).2 (e.opre hp hi hn)

theorem back_of_opaque (c0 : Closed cfg h0 L R)
    (e : EInv cfg h0 L h O B inc) {p : Nat} (hp : p ∈ O) (hB : B p = 0)
    (hn : h.num p = h0.num p) (o : OPost h0 L h h' p (B p) 0) : Back h0 L h' p := by
  have hlp : ∀ s, L p s → h'.cell p s = h0.cell p s := by
    intro s hl
    rw [o.live s hl]
    rcases e.live p s hl with h1 | ⟨_, h1, _⟩
    · exact h1.1
    · omega
  have hsz : ∀ x n b, 0 ≤ x → x < h0.num p → Tile (h0.cell p) 0 x →
      h0.cell p x = some ⟨.own n, b⟩ → ∃ b', h'.cell p x = some ⟨.own n, b'⟩ := by
    intro x n b _ hx ht hb
    by_cases hl : L p x
    · exact ⟨b, (hlp x hl).trans hb⟩
    · exact ⟨_, o.dead x n b (Nat.zero_le _) hx ht hb hl⟩
  refine ⟨e.orig p hp, by rw [o.flag]; exact (e.keep p hp).1,
    by rw [o.mark]; exact (e.keep p hp).2, by rw [o.num]; exact hn, ?_, hlp, ?_⟩
  rotate_left
  · intro q s t hl hf
    by_cases hqp : q = p
    · subst hqp
      obtain ⟨n, b, hb, _⟩ := L_own c0 hl
      rw [fwd_own ((hlp s hl).trans hb)] at hf
      cases hf
      exact ⟨rfl, rfl⟩
    · have hcq := o.other q s hqp
      rcases e.live q s hl with ⟨h1, _⟩ | ⟨_, _, n, b, x, y, _, h2, _, h4⟩
      · obtain ⟨n, b, hb, _⟩ := L_own c0 hl
        rw [fwd_own ((hcq.trans h1).trans hb)] at hf
        cases hf
        exact absurd rfl hqp
      · rw [fwd_moved (hcq.trans h2)] at hf
        cases hf
        exact absurd h4.1 (e.notUse hp)
  intro x hx
  have ht0 := (c0.pages.tiled p (Or.inl (e.orig p hp))).2
  constructor
  · intro h1; exact ht0.back hsz h1 hx
  · intro h1
    exact h1.transfer fun y n b hy hy' ht hb => hsz y n b hy (by omega) ht hb

theorem Colours.opaque (hc : Colours h0 L h) (e : EInv cfg h0 L h O B inc) {p : Nat}
    (hp : p ∈ O) (o : OPost h0 L h h' p (B p) 0) : Colours h0 L h' := by
  intro q hq
  have hq' : h.inUse q := by
    simpa only [Heap.inUse, o.used, o.cur] using hq
  have hqp : q ≠ p := fun h => e.notUse hp (h ▸ hq')
  rcases hc q hq' with h1 | h1
  · exact Or.inl ⟨by rw [o.flag]; exact h1.1, by rw [o.mark]; exact h1.2⟩
  · have hcell : h'.cell q = h.cell q := by funext t; exact o.other q t hqp
    exact Or.inr ⟨h1.used, by rw [o.flag]; exact h1.flag, by rw [o.mark]; exact h1.mark,
      by rw [o.num]; exact h1.num, by rw [hcell]; exact h1.start, by rw [hcell]; exact h1.live,
      fun x s t hl hf => h1.own x s t hl (by
        rw [← hf]
        refine (fwd_congr ?_).symm
        by_cases hx : x = p
        · subst hx; exact o.live s hl
        · exact o.other x s hx)⟩

theorem Colours.push (hc : Colours h0 L h) {p : Nat} (hb : Back h0 L h p) :
    Colours h0 L (pushUsed cfg h p) := by
  intro q hq
  rw [inUse_iff] at hq
  have hq : q ∈ h.cur.toList ++ pushPage cfg h h.used p := hq
  rw [List.mem_append, (pushPage_perm cfg h h.used p).mem_iff, List.mem_cons] at hq
  by_cases hqp : q = p
  · subst hqp
    exact Or.inr ⟨hb.used, hb.flag, hb.mark, hb.num, hb.start, hb.live, hb.own⟩
  · have hq' : h.inUse q := by rw [inUse_iff, List.mem_append]; grind
    rcases hc q hq' with h1 | h1
    · exact Or.inl h1
    · exact Or.inr ⟨h1.used, h1.flag, h1.mark, h1.num, h1.start, h1.live, h1.own⟩

theorem putBack_spec (c0 : Closed cfg h0 L R) (m0 : Marked h0 L) :
    ∀ (todo : List Nat) (h : Heap), EInv cfg h0 L h (todo ++ O) B inc →
      (∀ p ∈ todo, B p = 0 ∧ inc ≠ some p) → Colours h0 L h →
      ∃ h', putBack cfg todo h = some h' ∧ EInv cfg h0 L h' O B inc ∧ Colours h0 L h'
  | [], h, e, _, hc => ⟨h, rfl, e, hc⟩
  | p :: todo, h, e, ht, hc => by
    have hp : p ∈ p :: (todo ++ O) := List.mem_cons_self
    have e : EInv cfg h0 L h (p :: (todo ++ O)) B inc := e
    obtain ⟨hB, hi⟩ := ht p List.mem_cons_self
    have hn := e.num_eq hp (Or.inr hB)
    obtain ⟨h1, ho, o⟩ := opaque_page c0 m0 e hp hi hn
    unfold putBack
    simp only [ho]
    exact putBack_spec c0 m0 todo _ (e.enter c0 hi hB hn o)
      (fun q hq => ht q (List.mem_cons_of_mem _ hq))
      ((hc.opaque e hp o).push (back_of_opaque c0 e hp hB hn o))

/-- How evacuation ends. -/
structure OutOk (cfg : Cfg) (h0 : Heap) (L : Nat → Nat → Prop) (o : Out) : Prop where
  cur : o.h.cur = none
  inv : ∃ B, EInv cfg h0 L o.h ((o.inc.map Prod.fst).toList ++ o.fp) B (o.inc.map Prod.fst) ∧
    (∀ p ∈ o.fp, B p = h0.num p) ∧ ∀ p s, o.inc = some (p, s) → B p = s
  inc : ∀ p s, o.inc = some (p, s) → 0 < s ∧ s < h0.num p ∧ o.err = true
  fp : ∀ p ∈ o.fp, h0.flag p = false
  incFlag : ∀ p s, o.inc = some (p, s) → h0.flag p = false
  colours : o.err = true → Colours h0 L o.h

theorem release_colours {h : Heap} (hc : Colours h0 L h) : Colours h0 L (release cfg h) := by
  intro q hq
  rw [(release_same cfg h).inUse] at hq
  have hf : (release cfg h).flag = h.flag ∧ (release cfg h).mark = h.mark ∧
      (release cfg h).num = h.num ∧ (release cfg h).cell = h.cell := by
    unfold release; split <;> exact ⟨rfl, rfl, rfl, rfl⟩
  obtain ⟨f1, f2, f3, f4⟩ := hf
  rcases hc q hq with h1 | h1
  · exact Or.inl ⟨by rw [f1]; exact h1.1, by rw [f2]; exact h1.2⟩
  · exact Or.inr ⟨h1.used, by rw [f1]; exact h1.flag, by rw [f2]; exact h1.mark,
      by rw [f3]; exact h1.num, by rw [f4]; exact h1.start, by rw [f4]; exact h1.live,
      by rw [f4]; exact h1.own⟩

theorem giveUp_spec (c0 : Closed cfg h0 L R) (m0 : Marked h0 L) {p : Nat} {todo fp : List Nat}
    (e : EInv cfg h0 L h (p :: (todo ++ fp)) B none) (hcur : h.cur = none)
    (hlt : B p < h0.num p) (ht : ∀ q ∈ todo, B q = 0) (hfp : ∀ q ∈ fp, B q = h0.num q)
    (hfl : ∀ q ∈ p :: fp, h0.flag q = false) :
    ∃ o, giveUp cfg h p (B p) todo fp = some o ∧ OutOk cfg h0 L o := by
  have hp : p ∈ p :: (todo ++ fp) := List.mem_cons_self
  have hn := e.num_eq hp (Or.inl hlt)
  have e1 := e.blacken
  have hn1 : (blacken h).num p = h0.num p := hn
  have hc1 : Colours h0 L (blacken h) := by
    intro q hq
    left
    have hq : q ∈ h.used := by
      rcases hq with h1 | h1
      · exact h1
      · have h1 : h.cur = some q := h1
        rw [hcur] at h1; cases h1
    simp [Full, Gc.blacken, hq]
  obtain ⟨h1, ho, o⟩ := opaque_page c0 m0 e1 hp (by simp) hn1
  have ho : opaqueObjs (blacken h) p (h.num p) (h.num p) 0 = some h1 := ho
  unfold giveUp
  simp only [ho]
  by_cases hs : B p = 0
  · simp only [hs, if_true]
    obtain ⟨h2, hp2, e2, c2⟩ := putBack_spec (O := fp) c0 m0 todo _
      (e1.enter c0 (by simp) hs hn1 o) (fun q hq => ⟨ht q hq, by simp⟩)
      ((hc1.opaque e1 hp o).push (back_of_opaque c0 e1 hp hs hn1 o))
    simp only [hp2]
    refine ⟨_, rfl, release_cur _ _, ⟨B, ?_, hfp, by simp⟩, by simp,
      fun q hq => hfl q (List.mem_cons_of_mem _ hq), by simp, fun _ => release_colours c2⟩
    exact e2.release
  · simp only [if_neg hs]
    have e2 := e1.incomplete c0 hn1 o
    have hne : ∀ q ∈ todo, some p ≠ some q := by
      intro q hq h
      cases h
      exact (List.nodup_cons.1 e.out).1 (List.mem_append.2 (Or.inl hq))
    obtain ⟨h2, hp2, e3, c2⟩ := putBack_spec (O := p :: fp) c0 m0 todo _
      (e2.perm List.perm_middle) (fun q hq => ⟨ht q hq, hne q hq⟩)
      (hc1.opaque e1 hp o)
    simp only [hp2]
    refine ⟨_, rfl, release_cur _ _, ⟨B, ?_, hfp, ?_⟩, ?_,
      fun q hq => hfl q (List.mem_cons_of_mem _ hq), ?_, fun _ => release_colours c2⟩
    · exact e3.release
    · intro q s h; cases h; rfl
    · intro q s h; cases h; exact ⟨by omega, hlt, rfl⟩
    · intro q s h; cases h; exact hfl p List.mem_cons_self

/-- Evacuation never fails, and it ends as it should. -/
theorem evacPages_spec (c0 : Closed cfg h0 L R) (m0 : Marked h0 L) (hu : 0 < cfg.unused) :
    ∀ (todo : List Nat) (h : Heap) (fp : List Nat) (B : Nat → Nat),
      EInv cfg h0 L h (todo ++ fp) B none → (∀ q ∈ todo, B q = 0) →
      (∀ q ∈ fp, B q = h0.num q) → (∀ q ∈ fp, h0.flag q = false) →
      ∃ o, evacPages cfg todo h fp = some o ∧ OutOk cfg h0 L o := by
  intro todo
  induction todo with
  | nil =>
    intro h fp B e _ hfp hfl
    refine ⟨_, rfl, release_cur _ _, ⟨B, e.release, hfp, by simp⟩, by simp, hfl, by simp,
      by simp⟩
  | cons p todo ih =>
    intro h fp B e ht hfp hfl
    have e : EInv cfg h0 L h (p :: (todo ++ fp)) B none := e
    have hp : p ∈ p :: (todo ++ fp) := List.mem_cons_self
    have hpu := e.orig p hp
    have hB := ht p List.mem_cons_self
    have hn := e.num_eq hp (Or.inr hB)
    have ht' : ∀ q ∈ todo, B q = 0 := fun q hq => ht q (List.mem_cons_of_mem _ hq)
    have hnd := List.nodup_cons.1 e.out
    -- how much of the page is in use
    have huse : ∃ u, pageUse h p = some u ∧ u ≤ h0.num p ∧
        (u = h0.num p → ∀ x, x < h0.num p → Tile (h0.cell p) 0 x → L p x) ∧
        (h0.flag p = true → u = h0.num p) := by
      unfold pageUse
      rw [(e.keep p hp).1, hn]
      by_cases hf : h0.flag p = true
      · rw [if_pos hf]
        refine ⟨_, rfl, Nat.le_refl _, fun _ x hx htx => ?_, fun _ => rfl⟩
        exact (m0.any p x hpu hx htx).1 (m0.full p x hpu hf hx)
      · rw [if_neg hf]
        obtain ⟨u, h1, h2, h3⟩ := slotsUsed_spec c0 m0 hpu (by simpa using hf)
          (fun s hs => e.same p hp (by simp) s (by omega) hs) (e.keep p hp).2 (h0.num p) 0
          (by omega) (Nat.zero_le _)
        exact ⟨u, h1, h2, fun hu x hx => h3 hu x (Nat.zero_le _) hx, fun h => absurd h hf⟩
    obtain ⟨u, hu1, hu2, hu3, hu4⟩ := huse
    unfold evacPages
    simp only [hu1]
    by_cases hkeep : h.num p - u < cfg.unused
    · simp only [if_pos hkeep]
      have hop : ∃ h1, (if u < h.num p then opaqueObjs h p (h.num p) (h.num p) 0 else some h) =
          some h1 ∧ OPost h0 L h h1 p (B p) 0 := by
        by_cases hlt : u < h.num p
        · rw [if_pos hlt]
          exact opaque_page c0 m0 e hp (by simp) hn
        · rw [if_neg hlt]
          refine ⟨h, rfl, rfl, rfl, rfl, rfl, rfl, rfl, rfl, fun _ _ _ => rfl, fun _ _ => rfl,
            fun _ _ => rfl, ?_, fun _ _ => rfl, [], by simp, by simp, ?_, by simp⟩
          · intro x n b _ hx htx _ hnl
            exact absurd (hu3 (by omega) x hx htx) hnl
          · intro x _ _ _ hx htx hnl
            exact absurd (hu3 (by omega) x hx htx) hnl
      obtain ⟨h1, hh1, o⟩ := hop
      have hk : keepPage cfg h p u = some { pushUsed cfg h1 p with
          flag := fun q => if q = p ∧ u ≠ 1 then true else h1.flag q } := by
        unfold keepPage
        simp only [hh1]
      simp only [hk]
      refine ih _ fp B ?_ ht' hfp hfl
      refine (e.enter c0 (by simp) hB hn o).same_heap ⟨rfl, rfl, rfl, rfl, rfl, .refl _⟩ rfl ?_
      intro q hq
      have hqp : q ≠ p := fun h => hnd.1 (h ▸ hq)
      exact ⟨by simp [hqp, pushUsed], fun s => rfl⟩
    · simp only [if_neg hkeep]
      have hflag : h0.flag p = false := by
        cases hf : h0.flag p with
        | false => rfl
        | true => have := hu4 hf; omega
      obtain ⟨r, hr, hok⟩ := evacObjs_spec c0 m0 (h0.num p) h B 0 fp (by omega) e
      rw [hB] at hr
      rw [hn]
      simp only [hr]
      cases r with
      | done h1 n fp1 =>
        obtain ⟨s1, B', s2, s3, s4, _, s6⟩ := hok
        simp only
        have hnd3 := List.nodup_cons.1 s3.out
        refine ih _ (fp1 ++ [p]) B' ?_ ?_ ?_ ?_
        · have hperm : (todo ++ (fp1 ++ [p])).Perm (p :: (todo ++ fp1)) := by
            rw [← List.append_assoc]
            exact List.perm_append_comm
          refine EInv.perm ?_ hperm
          by_cases hn0 : n = 0
          · rw [if_pos hn0]
            exact s3.wiped List.mem_cons_self s4 fun s => s6 hn0 s (by omega)
          · rw [if_neg hn0]; exact s3
        · intro q hq
          rw [s2 q fun h => hnd.1 (List.mem_append.2 (Or.inl (h ▸ hq)))]
          exact ht' q hq
        · intro q hq
          rcases List.mem_append.1 hq with h1 | h1
          · rw [s2 q fun h => hnd3.1 (List.mem_append.2 (Or.inr (h ▸ h1)))]
            exact hfp q (s1 q h1)
          · simp only [List.mem_singleton] at h1
            subst h1; exact s4
        · intro q hq
          rcases List.mem_append.1 hq with h1 | h1
          · exact hfl q (s1 q h1)
          · simp only [List.mem_singleton] at h1
            subst h1; exact hflag
      | stop h1 s fp1 =>
        obtain ⟨s1, B', s2, s3, rfl, s5, s6⟩ := hok
        simp only
        have hnd3 := List.nodup_cons.1 s3.out
        refine giveUp_spec c0 m0 s3 s6 s5 ?_ ?_ ?_
        · intro q hq
          rw [s2 q fun h => hnd.1 (List.mem_append.2 (Or.inl (h ▸ hq)))]
          exact ht' q hq
        · intro q hq
          rw [s2 q fun h => hnd3.1 (List.mem_append.2 (Or.inr (h ▸ hq)))]
          exact hfp q (s1 q hq)
        · intro q hq
          rcases List.mem_cons.1 hq with h1 | h1
          · subst h1; exact hflag
          · exact hfl q (s1 q h1)

end

end Verif.Gc
