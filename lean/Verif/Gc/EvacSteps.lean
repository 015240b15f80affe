import Verif.Gc.EvacProof

/-! # Moving objects: the other steps -/

namespace Verif.Gc

section
variable {cfg : Cfg} {h0 h h' : Heap} {L : Nat → Nat → Prop} {R : List Ref} {O : List Nat}
  {B : Nat → Nat} {inc : Option Nat}

/-- An object which is not to be kept is finalized. -/
theorem EInv.final (c0 : Closed cfg h0 L R) (e : EInv cfg h0 L h O B none) {p n : Nat}
    {b : Body} (hp : p ∈ O) (hlt : B p < h0.num p) (hl : ¬ L p (B p))
    (hb : h0.cell p (B p) = some ⟨.own n, b⟩) (f : Finalized h h' p (B p) n b) :
    EInv cfg h0 L h' O (setNum B p (B p + n)) none := by
  obtain ⟨n', b', hb', hn, hle, hspp, ht', ho⟩ := e.next c0 hp hlt
  rw [hb] at hb'
  cases hb'
  have hpu := e.notUse hp
  have hallc : h'.all = h.all := by simp only [Heap.all, f.cur, f.used, f.free]
  have huse : ∀ x, h'.inUse x ↔ h.inUse x := by
    intro x; simp only [Heap.inUse, f.used, f.cur]
  have hcu : ∀ x y, h.inUse x → h'.cell x y = h.cell x y := by
    intro x y hx
    refine f.cell x y ?_
    rintro ⟨rfl, _⟩; exact hpu hx
  have hobj : ∀ x y, IsObj h' x y ↔ IsObj h x y := by
    intro x y
    unfold IsObj
    rw [huse, f.num]
    constructor
    · rintro ⟨h1, h2, h3⟩
      exact ⟨h1, h2, h3.congr fun z _ _ => (hcu x z h1).symm⟩
    · rintro ⟨h1, h2, h3⟩
      exact ⟨h1, h2, h3.congr fun z _ _ => hcu x z h1⟩
  have hLcell : ∀ x y, L x y → h'.cell x y = h.cell x y := by
    intro x y hxy
    refine f.cell x y ?_
    rintro ⟨rfl, rfl⟩; exact hl hxy
  have hBp : ∀ x, B x ≤ setNum B p (B p + n) x := by
    intro x
    by_cases hx : x = p
    · subst hx; rw [setNum_same]; omega
    · rw [setNum_ne _ _ hx]; omega
  refine ⟨?_, e.out, ?_, ?_, e.orig, ?_, ?_, ?_, ?_, ?_, ?_, ?_, ?_, ?_, ?_,
    fun x hx => (by cases hx), ?_⟩
  · exact ⟨hallc ▸ e.lists.nodup, by rw [hallc, f.next]; exact e.lists.lt,
      by rw [f.free, f.num]; exact e.lists.free,
      fun x hx => by rw [f.num]; exact e.lists.le x ((huse x).1 hx)⟩
  · rw [hallc]; exact e.apart
  · rw [f.next]; exact e.outlt
  · intro x hx
    by_cases hxp : x = p
    · subst hxp; rw [setNum_same]; exact ⟨hle, ht'⟩
    · rw [setNum_ne _ _ hxp]; exact e.bound x hx
  · intro x hx
    rw [f.num]
    rcases e.num x hx with h1 | ⟨h1, h2, h3⟩
    · exact Or.inl h1
    · refine Or.inr ⟨h1, h2, ?_⟩
      rw [setNum_ne _ _ ?_, h3]
      rintro rfl
      omega
  · intro x hx hi y hy hy'
    rw [f.cell x y ?_]
    · exact e.same x hx hi y (Nat.le_trans (hBp x) hy) hy'
    · rintro ⟨rfl, rfl⟩
      rw [setNum_same] at hy
      omega
  · intro x hx hi hnx y m c hy hty hc hnl
    rw [f.num] at hnx
    by_cases hne : x = p ∧ y = B p
    · obtain ⟨rfl, rfl⟩ := hne
      rw [hb] at hc
      cases hc
      exact f.here
    · rw [f.cell x y hne]
      refine e.done x hx hi hnx y m c ?_ hty hc hnl
      by_cases hxp : x = p
      · subst hxp
        rw [setNum_same] at hy
        rcases Nat.lt_trichotomy y (B x) with h1 | h1 | h1
        · exact h1
        · exact absurd ⟨rfl, h1⟩ hne
        · have := ho.2.2.no_inside hty hb h1
          omega
      · rw [setNum_ne _ _ hxp] at hy; exact hy
  · intro x hx
    rw [f.flag, f.mark]
    exact e.keep x hx
  · intro x hx
    have h1 := (huse x).1 hx
    rw [f.num]
    exact (e.tiled x h1).congr fun z _ _ => hcu x z h1
  · intro x y hxy
    have hcx := hLcell x y hxy
    rcases e.live x y hxy with ⟨h1, h2⟩ | ⟨h1, h2, m, c, q', t', h3, h4, h5, h6⟩
    · left
      refine ⟨hcx.trans h1, ?_⟩
      rcases h2 with ⟨h2, h3⟩ | h2
      · left
        refine ⟨h2, ?_⟩
        by_cases hxp : x = p
        · subst hxp
          rw [setNum_same]
          refine ho.2.2.no_inside (c0.obj x y hxy).2.2 hb ?_
          rcases Nat.eq_or_lt_of_le h3 with h4 | h4
          · subst h4; exact absurd hxy hl
          · exact h4
        · rw [setNum_ne _ _ hxp]; exact h3
      · exact Or.inr ((hobj x y).2 h2)
    · exact Or.inr ⟨h1, Nat.lt_of_lt_of_le h2 (hBp x), m, c, q', t', h3, hcx.trans h4,
        (hcu q' t' h6.1).trans h5, (hobj q' t').2 h6⟩
  · intro x y x' y' hxy hxy' he
    rw [fwd_congr (hLcell x y hxy), fwd_congr (hLcell x' y' hxy')] at he
    exact e.inj x y x' y' hxy hxy' he
  · intro x y m c hxy hc
    have h1 := (hobj x y).1 hxy
    rw [hcu x y h1.1] at hc
    rcases e.objs x y m c h1 hc with ⟨x', y', h2, h3⟩ | h2
    · exact Or.inl ⟨x', y', h2, by rw [fwd_congr (hLcell x' y' h2)]; exact h3⟩
    · exact Or.inr h2
  · intro x y m k hxy hor hc
    rw [f.huge k ?_]
    · exact e.huges x y m k hxy (hor.imp id fun h => ⟨h.1, h.2.1, Nat.le_trans (hBp x) h.2.2⟩) hc
    · rintro rfl
      obtain ⟨rfl, rfl⟩ := c0.trackers.uniq ho hb hxy hc
      rcases hor with h1 | ⟨_, _, h1⟩
      · exact hl h1
      · rw [setNum_same] at h1
        omega
  · obtain ⟨l, h2, h3⟩ := e.calls
    obtain ⟨g, g1, g2, g3⟩ := f.log
    have hown : ∀ d, Owes h p (B p) d ↔ Owes h0 p (B p) d := by
      intro d
      unfold Owes
      rw [e.same p hp (by simp) (B p) (Nat.le_refl _) hlt]
      constructor
      · rintro (h1 | ⟨m, k, x, h1, h2⟩)
        · exact Or.inl h1
        · refine Or.inr ⟨m, k, x, h1, ?_⟩
          rw [← e.huges p (B p) m k ho (Or.inr ⟨hp, by simp, Nat.le_refl _⟩) h1]
          exact h2
      · rintro (h1 | ⟨m, k, x, h1, h2⟩)
        · exact Or.inl h1
        · refine Or.inr ⟨m, k, x, h1, ?_⟩
          rw [e.huges p (B p) m k ho (Or.inr ⟨hp, by simp, Nat.le_refl _⟩) h1]
          exact h2
    refine ⟨l ++ g, by rw [g1, h2, List.append_assoc], h3.step c0.trackers ?_ ?_ ?_ ?_⟩
    · intro x y _ _ h4 h5
      exact (h4 h5).imp (fun h => Nat.lt_of_lt_of_le h (hBp x)) id
    · intro d hd
      refine ⟨p, B p, ho, hl, (hown d).1 ((g3 d).1 hd), fun _ => Or.inl ?_⟩
      rw [setNum_same]
      omega
    · intro x y d hxy hnl how h4
      by_cases hxp : x = p
      · subst hxp
        rcases Nat.lt_trichotomy y (B x) with h7 | h7 | h7
        · exact Or.inl fun _ => Or.inl h7
        · subst h7
          exact Or.inr ((g3 d).2 ((hown d).2 how))
        · rcases h4 hp with h5 | h5
          · rw [setNum_same] at h5
            have := ho.2.2.no_inside hxy.2.2 hb h7
            omega
          · cases h5
      · left
        intro h5
        have := h4 h5
        rw [setNum_ne _ _ hxp] at this
        exact this
    · intro _
      refine ⟨g2, fun d hd => ⟨p, B p, ho, hl, (hown d).1 ((g3 d).1 hd), fun h4 => ?_⟩⟩
      rcases h4 hp with h5 | h5
      · exact absurd h5 (Nat.lt_irrefl _)
      · cases h5

/-- Empty pages are given back at once. -/
theorem EInv.drop (e : EInv cfg h0 L h O B none) {D O' : List Nat} (hd : (D ++ O').Perm O)
    (h0' : ∀ p ∈ D, ∀ s, ¬ L p s) (hz : ∀ p ∈ D, ∀ s, IsObj h0 p s → s < B p) :
    EInv cfg h0 L (reclaim h D) O' B none := by
  have hnd := hd.nodup_iff.2 e.out
  have hmD : ∀ p ∈ D, p ∈ O := fun p hp => hd.mem_iff.1 (List.mem_append.2 (Or.inl hp))
  have hmO : ∀ p ∈ O', p ∈ O := fun p hp => hd.mem_iff.1 (List.mem_append.2 (Or.inr hp))
  have hdis : ∀ p ∈ O', p ∉ D := fun p hp hp' => (List.nodup_append.1 hnd).2.2 p hp' p hp rfl
  have hsplit : ∀ p ∈ O, p ∈ D ∨ p ∈ O' := fun p hp => List.mem_append.1 (hd.mem_iff.2 hp)
  have hc : ∀ x y, x ∉ D → (reclaim h D).cell x y = h.cell x y := by
    intro x y hx; simp [reclaim, wipe, hx]
  have hn : ∀ x, x ∉ D → (reclaim h D).num x = h.num x := by
    intro x hx; simp [reclaim, wipe, hx]
  have huse : ∀ x, (reclaim h D).inUse x ↔ h.inUse x := fun x => Iff.rfl
  have hnu : ∀ x, h.inUse x → x ∉ D := fun x hx hx' => e.notUse (hmD x hx') hx
  have hobj : ∀ x y, IsObj (reclaim h D) x y ↔ IsObj h x y := by
    intro x y
    unfold IsObj
    rw [huse]
    constructor
    · rintro ⟨h1, h2, h3⟩
      rw [hn x (hnu x h1)] at h2
      exact ⟨h1, h2, h3.congr fun z _ _ => (hc x z (hnu x h1)).symm⟩
    · rintro ⟨h1, h2, h3⟩
      rw [hn x (hnu x h1)]
      exact ⟨h1, h2, h3.congr fun z _ _ => hc x z (hnu x h1)⟩
  have hLD : ∀ x y, L x y → x ∉ D := fun x y hl hx => h0' x hx y hl
  have hall : (reclaim h D).all.Perm (D ++ h.all) := by
    show (h.cur.toList ++ h.used ++ (D ++ h.free)).Perm (D ++ (h.cur.toList ++ h.used ++ h.free))
    rw [← List.append_assoc, ← List.append_assoc]
    exact List.Perm.append_right _ List.perm_append_comm
  refine ⟨⟨?_, ?_, ?_, ?_⟩, (List.nodup_append.1 hnd).2.1, ?_, fun p hp => e.outlt p (hmO p hp),
    fun p hp => e.orig p (hmO p hp), fun p hp => e.bound p (hmO p hp), ?_, ?_, ?_,
    fun p hp => e.keep p (hmO p hp), ?_, ?_, ?_, ?_, ?_, fun x hx => (by cases hx), ?_⟩
  · rw [hall.nodup_iff]
    refine List.nodup_append.2 ⟨(List.nodup_append.1 hnd).1, e.lists.nodup, ?_⟩
    rintro a ha b hb rfl
    exact e.apart a (hmD a ha) hb
  · intro p hp
    rcases List.mem_append.1 (hall.mem_iff.1 hp) with h1 | h1
    · exact e.outlt p (hmD p h1)
    · exact e.lists.lt p h1
  · intro p hp
    rcases List.mem_append.1 (show p ∈ D ++ h.free from hp) with h1 | h1
    · simp [reclaim, wipe, h1]
    · by_cases h2 : p ∈ D
      · simp [reclaim, wipe, h2]
      · rw [hn p h2]; exact e.lists.free p h1
  · intro p hp
    rw [hn p (hnu p hp)]
    exact e.lists.le p hp
  · intro p hp hp'
    rcases List.mem_append.1 (hall.mem_iff.1 hp') with h1 | h1
    · exact hdis p hp h1
    · exact e.apart p (hmO p hp) h1
  · intro p hp
    rw [hn p (hdis p hp)]
    exact e.num p (hmO p hp)
  · intro p hp hi s hs hs'
    rw [hc p s (hdis p hp)]
    exact e.same p (hmO p hp) hi s hs hs'
  · intro p hp hi hnum
    rw [hn p (hdis p hp)] at hnum
    intro s n b
    rw [hc p s (hdis p hp)]
    exact e.done p (hmO p hp) hi hnum s n b
  · intro p hp
    rw [hn p (hnu p hp)]
    exact (e.tiled p hp).congr fun z _ _ => hc p z (hnu p hp)
  · intro p s hl
    have hpD := hLD p s hl
    rcases e.live p s hl with ⟨h1, h2⟩ | ⟨h1, h2, m, c, q', t', h3, h4, h5, h6⟩
    · left
      refine ⟨(hc p s hpD).trans h1, ?_⟩
      rcases h2 with ⟨h2, h3⟩ | h2
      · exact Or.inl ⟨(hsplit p h2).resolve_left hpD, h3⟩
      · exact Or.inr ((hobj p s).2 h2)
    · exact Or.inr ⟨(hsplit p h1).resolve_left hpD, h2, m, c, q', t', h3, (hc p s hpD).trans h4,
        (hc q' t' (hnu q' h6.1)).trans h5, (hobj q' t').2 h6⟩
  · intro p s p' s' hl hl' he
    rw [fwd_congr (hc p s (hLD p s hl)), fwd_congr (hc p' s' (hLD p' s' hl'))] at he
    exact e.inj p s p' s' hl hl' he
  · intro p s n b ho hcell
    have h1 := (hobj p s).1 ho
    rw [hc p s (hnu p h1.1)] at hcell
    rcases e.objs p s n b h1 hcell with ⟨p', s', h2, h3⟩ | h2
    · exact Or.inl ⟨p', s', h2, by rw [fwd_congr (hc p' s' (hLD p' s' h2))]; exact h3⟩
    · exact Or.inr h2
  · intro p s n k ho hor hcell
    exact e.huges p s n k ho (hor.imp id fun h => ⟨hmO p h.1, h.2⟩) hcell
  · obtain ⟨l, h2, h3⟩ := e.calls
    refine ⟨l, h2, h3.same fun p s ho _ => ⟨fun h hp => h (hmO p hp), fun h hp => ?_⟩⟩
    rcases hsplit p hp with h4 | h4
    · exact Or.inl (hz p h4 s ho)
    · exact h h4

/-- A page without objects to be kept is wiped. -/
theorem EInv.wiped (e : EInv cfg h0 L h O B none) {p : Nat} (hp : p ∈ O)
    (hB : B p = h0.num p) (hnl : ∀ s, ¬ L p s) : EInv cfg h0 L (wipe h [p]) O B none := by
  have hc : ∀ x y, x ≠ p → (wipe h [p]).cell x y = h.cell x y := by
    intro x y hx; simp [wipe, hx]
  have hn : ∀ x, x ≠ p → (wipe h [p]).num x = h.num x := by
    intro x hx; simp [wipe, hx]
  have hnp : (wipe h [p]).num p = 0 := by simp [wipe]
  have huse : ∀ x, (wipe h [p]).inUse x ↔ h.inUse x := fun x => Iff.rfl
  have hnu : ∀ x, h.inUse x → x ≠ p := fun x hx hx' => e.notUse hp (hx' ▸ hx)
  have hobj : ∀ x y, IsObj (wipe h [p]) x y ↔ IsObj h x y := by
    intro x y
    unfold IsObj
    rw [huse]
    constructor
    · rintro ⟨h1, h2, h3⟩
      rw [hn x (hnu x h1)] at h2
      exact ⟨h1, h2, h3.congr fun z _ _ => (hc x z (hnu x h1)).symm⟩
    · rintro ⟨h1, h2, h3⟩
      rw [hn x (hnu x h1)]
      exact ⟨h1, h2, h3.congr fun z _ _ => hc x z (hnu x h1)⟩
  have hLp : ∀ x y, L x y → x ≠ p := fun x y hl hx => hnl y (hx ▸ hl)
  refine ⟨⟨e.lists.nodup, e.lists.lt, ?_, ?_⟩, e.out, e.apart, e.outlt, e.orig, e.bound, ?_, ?_,
    ?_, e.keep, ?_, ?_, ?_, ?_, e.huges, fun x hx => (by cases hx), e.calls⟩
  · intro x hx
    by_cases hxp : x = p
    · subst hxp; exact hnp
    · rw [hn x hxp]; exact e.lists.free x hx
  · intro x hx
    rw [hn x (hnu x hx)]; exact e.lists.le x hx
  · intro x hx
    by_cases hxp : x = p
    · subst hxp; exact Or.inr ⟨hnp, hnl, hB⟩
    · rw [hn x hxp]; exact e.num x hx
  · intro x hx hi s hs hs'
    rw [hc x s ?_]
    · exact e.same x hx hi s hs hs'
    · rintro rfl; omega
  · intro x hx hi hnum s n b hs ht hcell hd
    by_cases hxp : x = p
    · subst hxp
      rw [hnp] at hnum
      omega
    · rw [hn x hxp] at hnum
      rw [hc x s hxp]
      exact e.done x hx hi hnum s n b hs ht hcell hd
  · intro x hx
    rw [hn x (hnu x hx)]
    exact (e.tiled x hx).congr fun z _ _ => hc x z (hnu x hx)
  · intro x s hl
    have hxp := hLp x s hl
    rcases e.live x s hl with ⟨h1, h2⟩ | ⟨h1, h2, m, c, q', t', h3, h4, h5, h6⟩
    · exact Or.inl ⟨(hc x s hxp).trans h1, h2.imp id (hobj x s).2⟩
    · exact Or.inr ⟨h1, h2, m, c, q', t', h3, (hc x s hxp).trans h4,
        (hc q' t' (hnu q' h6.1)).trans h5, (hobj q' t').2 h6⟩
  · intro x s x' s' hl hl' he
    rw [fwd_congr (hc x s (hLp x s hl)), fwd_congr (hc x' s' (hLp x' s' hl'))] at he
    exact e.inj x s x' s' hl hl' he
  · intro x s n b ho hcell
    have h1 := (hobj x s).1 ho
    rw [hc x s (hnu x h1.1)] at hcell
    rcases e.objs x s n b h1 hcell with ⟨p', s', h2, h3⟩ | h2
    · exact Or.inl ⟨p', s', h2, by rw [fwd_congr (hc p' s' (hLp p' s' h2))]; exact h3⟩
    · exact Or.inr h2

/-- Objects of page `p` may be made opaque. -/
theorem EInv.opre (e : EInv cfg h0 L h O B inc) {p : Nat} (hp : p ∈ O)
    (hi : inc ≠ some p) (hn : h.num p = h0.num p) : OPre h0 L h p (B p) 0 := by
  intro x n b _ hx ht hb
  constructor
  · intro hl
    rcases e.live p x hl with ⟨h1, _⟩ | ⟨_, _, m, c, q, t, h3, h4, h5, h6⟩
    · exact Or.inl (h1.trans hb)
    · rw [hb] at h3
      cases h3
      exact Or.inr ⟨q, t, b, b, h4, fun h => e.notUse hp (h ▸ h6.1), h5⟩
  · intro hl
    by_cases hxB : x < B p
    · obtain ⟨b', h1, h2⟩ := e.done p hp hi hn x n b hxB ht hb hl
      exact ⟨b', h1, Or.inr ⟨hxB, h2⟩⟩
    · refine ⟨b, ?_, Or.inl ⟨by omega, rfl, ?_⟩⟩
      · rw [e.same p hp hi x (by omega) hx, hb]
      · rintro k rfl
        exact e.huges p x n k ⟨Or.inl (e.orig p hp), hx, ht⟩ (Or.inr ⟨hp, hi, by omega⟩) hb

/-- Objects of page `p` have been made opaque: what stays true. -/
theorem OPost.frame (e : EInv cfg h0 L h O B inc) {p : Nat} (hp : p ∈ O)
    (o : OPost h0 L h h' p (B p) 0) :
    (∀ x y, IsObj h' x y ↔ IsObj h x y) ∧ (∀ x y, L x y → h'.cell x y = h.cell x y) ∧
    (∀ x y, h.inUse x → h'.cell x y = h.cell x y) ∧ h'.all = h.all ∧
    (∀ x, h'.inUse x ↔ h.inUse x) := by
  have huse : ∀ x, h'.inUse x ↔ h.inUse x := by
    intro x; simp only [Heap.inUse, o.used, o.cur]
  have hcu : ∀ x y, h.inUse x → h'.cell x y = h.cell x y :=
    fun x y hx => o.other x y fun h => e.notUse hp (h ▸ hx)
  refine ⟨?_, ?_, hcu, by simp only [Heap.all, o.cur, o.used, o.free], huse⟩
  · intro x y
    unfold IsObj
    rw [huse, o.num]
    constructor
    · rintro ⟨h1, h2, h3⟩
      exact ⟨h1, h2, h3.congr fun z _ _ => (hcu x z h1).symm⟩
    · rintro ⟨h1, h2, h3⟩
      exact ⟨h1, h2, h3.congr fun z _ _ => hcu x z h1⟩
  · intro x y hl
    by_cases hx : x = p
    · subst hx; exact o.live y hl
    · exact o.other x y hx

/-- Huge objects which are still needed stay when objects of page `p` are made opaque. -/
theorem OPost.huges (c0 : Closed cfg h0 L R) {p c : Nat} (hp : p ∈ h0.used)
    (o : OPost h0 L h h' p c 0) {x y n k : Nat} (ho : IsObj h0 x y) (hor : L x y ∨ x ≠ p)
    (hc : h0.cell x y = some ⟨.own n, .tracker (.huge k)⟩) : h'.huge k = h.huge k := by
  refine o.huge k ?_
  intro z m _ hz htz hnl hcz
  obtain ⟨rfl, rfl⟩ := c0.trackers.uniq ⟨Or.inl hp, hz, htz⟩ hcz ho hc
  rcases hor with h1 | h1
  · exact hnl h1
  · exact h1 rfl

/-- A page of which nothing was moved goes back to the heap. -/
theorem EInv.enter (c0 : Closed cfg h0 L R) {p : Nat} (e : EInv cfg h0 L h (p :: O) B inc)
    (hi : inc ≠ some p) (hB : B p = 0) (hn : h.num p = h0.num p)
    (o : OPost h0 L h h' p (B p) 0) : EInv cfg h0 L (pushUsed cfg h' p) O B inc := by
  have hp : p ∈ p :: O := List.mem_cons_self
  have hpu : p ∈ h0.used := e.orig p hp
  obtain ⟨hobj, hLc, hcu, hall, huse⟩ := o.frame e hp
  have hm : ∀ x ∈ O, x ∈ p :: O := fun x hx => List.mem_cons_of_mem _ hx
  have hne : ∀ x ∈ O, x ≠ p := fun x hx h => (List.nodup_cons.1 e.out).1 (h ▸ hx)
  -- the page
  have hlp : ∀ s, L p s → h'.cell p s = h0.cell p s := by
    intro s hl
    rw [hLc p s hl]
    rcases e.live p s hl with h1 | ⟨_, h1, _⟩
    · exact h1.1
    · omega
  have hsz : ∀ x n b, 0 ≤ x → x < h0.num p → Tile (h0.cell p) 0 x →
      h0.cell p x = some ⟨.own n, b⟩ → ∃ b', h'.cell p x = some ⟨.own n, b'⟩ := by
    intro x n b _ hx ht hb
    by_cases hl : L p x
    · exact ⟨b, (hlp x hl).trans hb⟩
    · exact ⟨_, o.dead x n b (Nat.zero_le _) hx ht hb hl⟩
  have ht0 := (c0.pages.tiled p (Or.inl hpu)).2
  have hle0 := (c0.pages.tiled p (Or.inl hpu)).1
  have ht1 : Tile (h'.cell p) 0 (h0.num p) := ht0.transfer hsz
  have hst : ∀ x, x ≤ h0.num p → (Tile (h'.cell p) 0 x ↔ Tile (h0.cell p) 0 x) := by
    intro x hx
    constructor
    · intro h1; exact ht0.back hsz h1 hx
    · intro h1
      exact h1.transfer fun y n b hy hy' ht hb => hsz y n b hy (by omega) ht hb
  have huse' : ∀ x, (pushUsed cfg h' p).inUse x ↔ h.inUse x ∨ x = p := by
    intro x
    rw [← huse x, inUse_iff, inUse_iff]
    show x ∈ h'.cur.toList ++ pushPage cfg h' h'.used p ↔ _
    rw [List.mem_append, List.mem_append, (pushPage_perm cfg h' h'.used p).mem_iff, List.mem_cons]
    grind
  have hobj' : ∀ x y, IsObj (pushUsed cfg h' p) x y ↔
      IsObj h x y ∨ (x = p ∧ y < h0.num p ∧ Tile (h0.cell p) 0 y) := by
    intro x y
    rw [← hobj]
    unfold IsObj
    rw [huse', ← huse]
    show (_ ∧ y < h'.num x ∧ Tile (h'.cell x) 0 y) ↔ _
    constructor
    · rintro ⟨h1 | h1, h2, h3⟩
      · exact Or.inl ⟨h1, h2, h3⟩
      · subst h1
        rw [o.num, hn] at h2
        exact Or.inr ⟨rfl, h2, (hst y (by omega)).1 h3⟩
    · rintro (⟨h1, h2, h3⟩ | ⟨rfl, h2, h3⟩)
      · exact ⟨Or.inl h1, h2, h3⟩
      · refine ⟨Or.inr rfl, ?_, (hst y (by omega)).2 h3⟩
        rw [o.num, hn]; exact h2
  have hallp : (pushUsed cfg h' p).all.Perm (p :: h.all) := by
    rw [← hall]
    show (h'.cur.toList ++ pushPage cfg h' h'.used p ++ h'.free).Perm
      (p :: (h'.cur.toList ++ h'.used ++ h'.free))
    refine (List.Perm.append_right _ (List.Perm.append_left _
      (pushPage_perm cfg h' h'.used p))).trans ?_
    refine (List.Perm.append_right _ List.perm_middle).trans ?_
    exact .refl _
  refine ⟨⟨?_, ?_, ?_, ?_⟩, (List.nodup_cons.1 e.out).2, ?_, ?_, fun x hx => e.orig x (hm x hx),
    fun x hx => e.bound x (hm x hx), ?_, ?_, ?_, ?_, ?_, ?_, ?_, ?_, ?_, ?_, ?_⟩
  · rw [hallp.nodup_iff, List.nodup_cons]
    exact ⟨e.apart p hp, e.lists.nodup⟩
  · intro x hx
    show x < h'.next
    rw [o.next]
    rcases List.mem_cons.1 (hallp.mem_iff.1 hx) with rfl | h1
    · exact e.outlt x hp
    · exact e.lists.lt x h1
  · show ∀ x ∈ h'.free, h'.num x = 0
    rw [o.free, o.num]
    exact e.lists.free
  · intro x hx
    show h'.num x ≤ cfg.spp
    rw [o.num]
    rcases (huse' x).1 hx with h1 | rfl
    · exact e.lists.le x h1
    · rw [hn]; exact hle0
  · intro x hx hx'
    rcases List.mem_cons.1 (hallp.mem_iff.1 hx') with h1 | h1
    · exact hne x hx h1
    · exact e.apart x (hm x hx) h1
  · intro x hx
    show x < h'.next
    rw [o.next]
    exact e.outlt x (hm x hx)
  · intro x hx
    show h'.num x = _ ∨ (h'.num x = _ ∧ _)
    rw [o.num]
    exact e.num x (hm x hx)
  · intro x hx hix s hs hs'
    show h'.cell x s = _
    rw [o.other x s (hne x hx)]
    exact e.same x (hm x hx) hix s hs hs'
  · intro x hx hix hnum s n b
    have hnum : h'.num x = h0.num x := hnum
    rw [o.num] at hnum
    show _ → _ → _ → _ → ∃ b', h'.cell x s = _ ∧ _
    rw [o.other x s (hne x hx)]
    exact e.done x (hm x hx) hix hnum s n b
  · intro x hx
    show h'.flag x = _ ∧ ∀ s, h'.mark x s = _
    rw [o.flag, o.mark]
    exact e.keep x (hm x hx)
  · intro x hx
    show Tile (h'.cell x) 0 (h'.num x)
    rw [o.num]
    rcases (huse' x).1 hx with h1 | rfl
    · exact (e.tiled x h1).congr fun z _ _ => hcu x z h1
    · rw [hn]; exact ht1
  · intro x s hl
    rcases e.live x s hl with ⟨h1, h2⟩ | ⟨h1, h2, m, c, q', t', h3, h4, h5, h6⟩
    · left
      refine ⟨(hLc x s hl).trans h1, ?_⟩
      rcases h2 with ⟨h2, h3⟩ | h2
      · rcases List.mem_cons.1 h2 with rfl | h4
        · have ho := c0.obj x s hl
          exact Or.inr ((hobj' x s).2 (Or.inr ⟨rfl, ho.2.1, ho.2.2⟩))
        · exact Or.inl ⟨h4, h3⟩
      · exact Or.inr ((hobj' x s).2 (Or.inl h2))
    · right
      refine ⟨?_, h2, m, c, q', t', h3, (hLc x s hl).trans h4, (hcu q' t' h6.1).trans h5,
        (hobj' q' t').2 (Or.inl h6)⟩
      rcases List.mem_cons.1 h1 with rfl | h7
      · omega
      · exact h7
  · intro x s x' s' hl hl' he
    have e1 : fwd (pushUsed cfg h' p).cell x s = fwd h.cell x s := fwd_congr (hLc x s hl)
    have e2 : fwd (pushUsed cfg h' p).cell x' s' = fwd h.cell x' s' := fwd_congr (hLc x' s' hl')
    rw [e1, e2] at he
    exact e.inj x s x' s' hl hl' he
  · intro x s n b ho hcell
    change h'.cell x s = some ⟨.own n, b⟩ at hcell
    rcases (hobj' x s).1 ho with h1 | ⟨rfl, h1, h2⟩
    · rw [hcu x s h1.1] at hcell
      rcases e.objs x s n b h1 hcell with ⟨p', s', h2, h3⟩ | h2
      · refine Or.inl ⟨p', s', h2, ?_⟩
        have e1 : fwd (pushUsed cfg h' p).cell p' s' = fwd h.cell p' s' := fwd_congr (hLc p' s' h2)
        rw [e1]; exact h3
      · exact Or.inr h2
    · by_cases hl : L x s
      · exact Or.inl ⟨x, s, hl, fwd_own (c := h'.cell) hcell⟩
      · right
        obtain ⟨m, c, hc, _⟩ := c0.pages.obj ⟨Or.inl hpu, h1, h2⟩
        rw [o.dead s m c (Nat.zero_le _) h1 h2 hc hl] at hcell
        cases hcell
        rfl
  · intro x s n k ho hor hcell
    show h'.huge k = _
    rw [o.huges c0 hpu ho (hor.imp id fun h => hne x h.1) hcell]
    exact e.huges x s n k ho (hor.imp id fun h => ⟨hm x h.1, h.2⟩) hcell
  · intro x hx
    obtain ⟨h1, h2, h3⟩ := e.part x hx
    have hxp : x ≠ p := by rintro rfl; exact hi hx
    refine ⟨(List.mem_cons.1 h1).resolve_left hxp, ?_, ?_⟩
    · show h'.num x = _
      rw [o.num]; exact h2
    · intro y n b
      show _ → _ → _ → _ → _ → h'.cell x y = _
      rw [o.other x y hxp]
      exact h3 y n b
  · obtain ⟨l, h2, h3⟩ := e.calls
    obtain ⟨g, g1, g2, g3, g4⟩ := o.log
    have hpO : p ∉ O := (List.nodup_cons.1 e.out).1
    refine ⟨l ++ g, ?_, h3.step c0.trackers ?_ ?_ ?_ ?_⟩
    · show h'.log = _
      rw [g1, h2, List.append_assoc]
    · exact fun x y _ _ h4 h5 => h4 (hm x h5)
    · intro d hd
      obtain ⟨x, _, h4, h5, h6, h7⟩ := g2 d hd
      exact ⟨p, x, ⟨Or.inl hpu, h4, h5⟩, h6, h7, fun h => absurd h hpO⟩
    · intro x y d hxy hnl how h4
      by_cases hxp : x = p
      · subst hxp
        by_cases hyB : y < B x
        · exact Or.inl fun _ => Or.inl hyB
        · exact Or.inr (g3 y d (Nat.zero_le _) (by omega) hxy.2.1 hxy.2.2 hnl how)
      · exact Or.inl fun h5 => h4 ((List.mem_cons.1 h5).resolve_left hxp)
    · intro hnm
      refine ⟨(g4 hnm).1, fun d hd => ?_⟩
      obtain ⟨x, _, h4, h5, h6, h7, h8⟩ := (g4 hnm).2 d hd
      refine ⟨p, x, ⟨Or.inl hpu, h5, h6⟩, h7, h8, fun h9 => ?_⟩
      rcases h9 hp with h9 | h9
      · omega
      · exact hi h9

/-- The rest of a page stays where it is. -/
theorem EInv.incomplete (c0 : Closed cfg h0 L R) {p : Nat} (e : EInv cfg h0 L h (p :: O) B none)
    (hn : h.num p = h0.num p) (o : OPost h0 L h h' p (B p) 0) :
    EInv cfg h0 L h' (p :: O) B (some p) := by
  have hp : p ∈ p :: O := List.mem_cons_self
  have hpu : p ∈ h0.used := e.orig p hp
  obtain ⟨hobj, hLc, hcu, hall, huse⟩ := o.frame e hp
  refine ⟨⟨?_, ?_, ?_, ?_⟩, e.out, ?_, ?_, e.orig, e.bound, ?_, ?_, ?_, ?_, ?_, ?_, ?_, ?_, ?_, ?_,
    ?_⟩
  · rw [hall]; exact e.lists.nodup
  · rw [hall, o.next]; exact e.lists.lt
  · rw [o.free, o.num]; exact e.lists.free
  · intro x hx; rw [o.num]; exact e.lists.le x ((huse x).1 hx)
  · rw [hall]; exact e.apart
  · rw [o.next]; exact e.outlt
  · rw [o.num]; exact e.num
  · intro x hx hix s hs hs'
    rw [o.other x s fun h => hix (by rw [h])]
    exact e.same x hx (by simp) s hs hs'
  · intro x hx hix hnum s n b
    rw [o.num] at hnum
    rw [o.other x s fun h => hix (by rw [h])]
    exact e.done x hx (by simp) hnum s n b
  · rw [o.flag, o.mark]; exact e.keep
  · intro x hx
    have h1 := (huse x).1 hx
    rw [o.num]
    exact (e.tiled x h1).congr fun z _ _ => hcu x z h1
  · intro x s hl
    rcases e.live x s hl with ⟨h1, h2⟩ | ⟨h1, h2, m, c, q', t', h3, h4, h5, h6⟩
    · exact Or.inl ⟨(hLc x s hl).trans h1, h2.imp id (hobj x s).2⟩
    · exact Or.inr ⟨h1, h2, m, c, q', t', h3, (hLc x s hl).trans h4, (hcu q' t' h6.1).trans h5,
        (hobj q' t').2 h6⟩
  · intro x s x' s' hl hl' he
    rw [fwd_congr (hLc x s hl), fwd_congr (hLc x' s' hl')] at he
    exact e.inj x s x' s' hl hl' he
  · intro x s n b ho hcell
    have h1 := (hobj x s).1 ho
    rw [hcu x s h1.1] at hcell
    rcases e.objs x s n b h1 hcell with ⟨p', s', h2, h3⟩ | h2
    · exact Or.inl ⟨p', s', h2, by rw [fwd_congr (hLc p' s' h2)]; exact h3⟩
    · exact Or.inr h2
  · intro x s n k ho hor hcell
    rw [o.huges c0 hpu ho (hor.imp id fun h hx => h.2.1 (by rw [hx])) hcell]
    exact e.huges x s n k ho (hor.imp id fun h => ⟨h.1, by simp, h.2.2⟩) hcell
  · intro x hx
    cases hx
    refine ⟨hp, by rw [o.num]; exact hn, ?_⟩
    intro y n b _ hy ht hb hnl
    exact o.dead y n b (Nat.zero_le _) hy ht hb hnl
  · obtain ⟨l, h2, h3⟩ := e.calls
    obtain ⟨g, g1, g2, g3, g4⟩ := o.log
    refine ⟨l ++ g, by rw [g1, h2, List.append_assoc], h3.step c0.trackers ?_ ?_ ?_ ?_⟩
    · exact fun x y _ _ h4 h5 => (h4 h5).imp id fun h => by cases h
    · intro d hd
      obtain ⟨x, _, h4, h5, h6, h7⟩ := g2 d hd
      exact ⟨p, x, ⟨Or.inl hpu, h4, h5⟩, h6, h7, fun _ => Or.inr rfl⟩
    · intro x y d hxy hnl how h4
      by_cases hxp : x = p
      · subst hxp
        by_cases hyB : y < B x
        · exact Or.inl fun _ => Or.inl hyB
        · exact Or.inr (g3 y d (Nat.zero_le _) (by omega) hxy.2.1 hxy.2.2 hnl how)
      · left
        intro h5
        rcases h4 h5 with h6 | h6
        · exact Or.inl h6
        · cases h6; exact absurd rfl hxp
    · intro hnm
      refine ⟨(g4 hnm).1, fun d hd => ?_⟩
      obtain ⟨x, _, h4, h5, h6, h7, h8⟩ := (g4 hnm).2 d hd
      refine ⟨p, x, ⟨Or.inl hpu, h5, h6⟩, h7, h8, fun h9 => ?_⟩
      rcases h9 hp with h9 | h9
      · omega
      · cases h9

end

end Verif.Gc
