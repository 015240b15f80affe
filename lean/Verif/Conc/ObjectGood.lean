import Verif.Conc.ObjectCopy

/-!
All steps keep the invariant.
-/
namespace Verif.PropTab
open Verif.Conc (upd sumTo sumTo_congr sumTo_upd sumTo_zero pend_le sumTo_const_one)

section
variable {r : Rules} {n : Nat} {s s1 : St} {a : Abs} {g g' : Nat → Option Nat} {t k : Nat} {c : Cont} {pc pc' : CopyPc}

theorem pend_of {b : Bool} (h : pendPc pc = b) (j : Nat) : pend j (.copy c k pc) = if k = j then b.toNat else 0 := by
  subst h; simp only [pend]; cases pendPc pc <;> rfl

theorem counted_of {b : Bool} (h : countPc pc = b) (j : Nat) : counted j (.copy c k pc) = if k = j then b.toNat else 0 := by
  subst h; simp only [counted]; cases countPc pc <;> rfl

theorem opens_close (h : Inv r n s a g) {i : Nat} (e : Sets s.toMem s1.toMem k i .closed) (ho : s1.open = s.open) (hi : i < s.cap k)
    (hv : s.val k i ≠ .closed) (hp : pendPc pc = false) (hp' : pendPc pc' = true) (j : Nat) (hj : j ≤ s.last) :
    s1.open j + pend j (.copy c k pc) = unclosed s1.toMem j + sumTo (fun t => pend j (s.th t)) n + pend j (.copy c k pc') := by
  have h1 := h.opens j hj
  rw [ho]
  by_cases hk : k = j
  · subst hk
    have h2 := e.close hi hv
    have e1 : pend k (.copy c k pc) = 0 := by simp [pend, hp]
    have e2 : pend k (.copy c k pc') = 1 := by simp [pend, hp']
    omega
  · have h2 := e.keep (i := j) (by omega)
    have e1 : pend j (.copy c k pc) = 0 := by simp [pend, hk]
    have e2 : pend j (.copy c k pc') = 0 := by simp [pend, hk]
    omega

theorem opens_keep (h : Inv r n s a g) {j' p : Nat} {v : Val} (e : Sets s.toMem s1.toMem j' p v) (ho : s1.open = s.open) (hv : v ≠ .closed)
    (hv' : s.val j' p ≠ .closed) (hp : pendPc pc' = pendPc pc) (j : Nat) (hj : j ≤ s.last) :
    s1.open j + pend j (.copy c k pc) = unclosed s1.toMem j + sumTo (fun t => pend j (s.th t)) n + pend j (.copy c k pc') := by
  have h1 := h.opens j hj
  rw [ho]
  have h2 := e.keep (i := j) (fun _ => ⟨hv, hv'⟩)
  have e1 : pend j (.copy c k pc') = pend j (.copy c k pc) := by simp [pend, hp]
  omega

theorem actives_keep (h : Inv r n s a g) (ho : s1.active = s.active) (hp : countPc pc' = countPc pc) (j : Nat) (hj : j ≤ s.last) :
    s1.active j + counted j (.copy c k pc) = sumTo (fun t => counted j (s.th t)) n + counted j (.copy c k pc') := by
  have h1 := h.actives j hj
  rw [ho]
  have e1 : counted j (.copy c k pc') = counted j (.copy c k pc) := by simp [counted, hp]
  omega

theorem good_cfast (h : Inv r n s a g) (ht : t < n) {i : Nat} (hl : s.th t = .copy c k (.fast i)) :
    Good r n a (copyStep r s t c k (.fast i)) := by
  have hi := h.th t
  rw [hl] at hi
  obtain ⟨h1, _, h2⟩ := hi
  simp only [copyStep]
  split
  · next hv =>
    have e : Sets s.toMem ({ s with val := upd2 s.val k i .closed } : St).toMem k i .closed := ⟨rfl, rfl, rfl, rfl, rfl⟩
    have hlast : k + 1 = s.last := h.level_open h1 h2 (by rw [hv]; simp)
    refine ⟨g, h.copyMove ht hl rfl rfl rfl (fun u => ?_) ?_ (sh_fast h h1 h2 hv e) h2 ?_ ?_ ?_ ?_ ?_⟩
    · refine e.ext rfl (fun j => dang_copy (fun hd => by cases hd)) (fun _ => rfl) (fun y _ hy => ?_) (Or.inl rfl) u
      rw [hv] at hy; cases hy
    · intro u k' p _ ho
      have := h.owner_level ho
      exact ⟨e.other (by omega), rfl⟩
    · intro j p hp
      have hh : ¬ (j = k ∧ p = i) := by
        rintro ⟨rfl, rfl⟩
        rw [e.this] at hp; cases hp
      rw [e.other hh] at hp
      exact res_copy h hl rfl (fun p ho => (not_owns_pc (by simp) (by simp) p ho).elim) hp
    · intro u p _ _ ho
      exact not_owns_pc (by simp) (by simp) p ho
    · exact opens_close h e rfl h2 (by rw [hv]; simp) rfl rfl
    · exact actives_keep h rfl rfl
    · intro j q hq hv'
      exact e.started h hl rfl rfl hq hv'
  · next hv =>
    refine ⟨g, h.copyStay ht hl (fun hd => by cases hd) ⟨h2, ?_⟩
      (no_own (not_owns_pc (by simp) (by simp)) (not_owns_pc (by simp) (by simp))) rfl rfl⟩
    show s.val k i = .closed ∨ ∃ x, s.key k i = some x
    generalize hw : s.val k i = w at hv ⊢
    cases w with
    | tomb => exact (hv rfl).elim
    | closed => exact Or.inl rfl
    | val z => exact Or.inr (h.sh.used k i (by rw [hw]; rfl))
    | reserved => exact Or.inr (h.sh.used k i (by rw [hw]; rfl))

theorem good_crsv (h : Inv r n s a g) (ht : t < n) {i p : Nat} (hl : s.th t = .copy c k (.rsv i p)) :
    Good r n a (copyStep r s t c k (.rsv i p)) := by
  have hi := h.th t
  rw [hl] at hi
  obtain ⟨h1, _, h2, x, h3, h4⟩ := hi
  have hlast : k + 1 = s.last := h.level h1 (t := t) (by rw [hl]; simp [dang, dangPc])
  simp only [copyStep]
  split
  · next hv =>
    have e : Sets s.toMem ({ s with val := upd2 s.val (k + 1) p .reserved } : St).toMem (k + 1) p .reserved := ⟨rfl, rfl, rfl, rfl, rfl⟩
    have hno : ∀ u k', Owns (s.th u) k' p → False := by
      intro u k' ho
      have hk' := h.owner_level ho
      have : k' = k := by omega
      subst this
      have h7 := h.th u
      generalize s.th u = l at ho h7
      cases ho with
      | swap => have := h7.2.2.2.2.1; rw [hv] at this; cases this
      | put => have := h7.2.2.2.2.1; rw [hv] at this; cases this
    refine ⟨upd g p none, h.copyMove ht hl rfl rfl rfl (fun u => ?_) ?_ (sh_rsv h hlast h4 hv e) ?_ ?_ ?_ ?_ ?_ ?_⟩
    · refine e.ext rfl (fun j => dang_copy (fun _ => h.not_done hl rfl)) (fun hc => ?_) (fun y _ hy => ?_) (Or.inr ?_) u
      · rw [hv] at hc; cases hc
      · rw [hv] at hy; cases hy
      · intro hd
        exact h.not_done hl rfl (hd k (by omega))
    · intro u k' p' _ ho
      have hne : p' ≠ p := by rintro rfl; exact hno u k' ho
      exact ⟨e.other (by simp [hne]), by simp [upd, hne]⟩
    · exact ⟨h2, ⟨x, h3, h4⟩, e.this, by simp [upd]⟩
    · intro j q hq
      by_cases hh : j = k + 1 ∧ q = p
      · obtain ⟨rfl, rfl⟩ := hh
        refine ⟨k, t, rfl, hlast, ?_⟩
        simp only [St.goto, upd, if_true]
        exact .swap c k i q
      · rw [e.other hh] at hq
        exact res_copy h hl rfl (fun p ho => (not_owns_pc (by simp) (by simp) p ho).elim) hq
    · intro u q _ ho ho'
      cases ho'
      exact hno u k ho
    · exact opens_keep h e rfl (by simp) (by rw [hv]; simp) rfl
    · exact actives_keep h rfl rfl
    · intro j q hq hv'
      exact e.started' h hl rfl rfl (by simp) (by rw [hv]; simp) hq hv'
  · exact ⟨g, h.copyStay ht hl (fun hd => by cases hd) h2
      (no_own (not_owns_pc (by simp) (by simp)) (not_owns_pc (by simp) (by simp))) rfl rfl⟩

theorem owns_swap {i p q : Nat} (h : Owns (.copy c k (.swap i p)) k q) : q = p := by cases h; rfl

theorem owns_put {i p q : Nat} {v : Val} {b : Bool} (h : Owns (.copy c k (.put i p v b)) k q) : q = p := by cases h; rfl

/-- Another thread owns another slot. -/
theorem Inv.other_owner (h : Inv r n s a g) {p u k' p' : Nat} (hk : k + 1 = s.last) (ho : Owns (s.th t) k p) (hu : u ≠ t) (ho' : Owns (s.th u) k' p') :
    k' = k ∧ p' ≠ p := by
  have := h.owner_level ho'
  have hk' : k' = k := by omega
  subst hk'
  refine ⟨rfl, ?_⟩
  rintro rfl
  exact hu (h.uniq u t k' p' ho' ho)

theorem good_cswap (h : Inv r n s a g) (ht : t < n) {i p : Nat} (hl : s.th t = .copy c k (.swap i p)) :
    Good r n a (copyStep r s t c k (.swap i p)) := by
  have hi := h.th t
  rw [hl] at hi
  obtain ⟨h1, _, h2, ⟨x, h3, h4⟩, h5, h6⟩ := hi
  have hlast : k + 1 = s.last := h.level h1 (t := t) (by rw [hl]; simp [dang, dangPc])
  have hown : Owns (s.th t) k p := by rw [hl]; exact .swap c k i p
  simp only [copyStep]
  split
  · next hv =>
    refine ⟨g, h.copyStay ht hl (fun _ => h.not_done hl rfl) ⟨h2, ⟨x, h3, h4⟩, h5, h6, hv, Or.inl rfl⟩ ?_ rfl rfl⟩
    intro q
    constructor
    · intro ho; cases ho; exact .swap _ _ _ _
    · intro ho; cases ho; exact .put _ _ _ _ _ _
  · next hv =>
    have e : Sets s.toMem ({ s with val := upd2 s.val k i .closed } : St).toMem k i .closed := ⟨rfl, rfl, rfl, rfl, rfl⟩
    refine ⟨upd g p (s.val k i).toOpt, h.copyMove ht hl rfl rfl rfl (fun u => ?_) ?_ (sh_swap h hlast h3 h4 h5 hv e) ?_ ?_ ?_ ?_ ?_ ?_⟩
    · refine e.ext rfl (fun j => dang_copy (fun _ => h.not_done hl rfl)) (fun _ => rfl) (fun y hy hlv => Or.inr ?_) (Or.inl rfl) u
      have hy' : s.key k i = some y := hy
      rw [h3] at hy'
      cases hy'
      refine ⟨k + 1, p, by omega, h4, ?_, fun j hj1 hj2 => ?_⟩
      · rw [e.other (by omega), h5]; rfl
      · have : j = k + 1 := by omega
        subst this
        exact ⟨p, h4⟩
    · intro u k' p' hu ho
      obtain ⟨rfl, hne⟩ := h.other_owner hlast hown hu ho
      exact ⟨e.other (by omega), by simp [upd, hne]⟩
    · refine ⟨h2, ⟨x, h3, h4⟩, ?_, by simp [upd], e.this, ?_⟩
      · show upd2 s.val k i .closed (k + 1) p = .reserved
        rw [upd2_ne _ _ (by omega)]; exact h5
      · generalize hw : s.val k i = w at hv
        cases w with
        | tomb => exact Or.inl rfl
        | closed => exact (hv rfl).elim
        | val z => exact Or.inr ⟨z, rfl⟩
        | reserved => exact (h.not_reserved_lt h1 hw).elim
    · intro j q hq
      by_cases hh : j = k ∧ q = i
      · obtain ⟨rfl, rfl⟩ := hh
        rw [e.this] at hq; cases hq
      · rw [e.other hh] at hq
        refine res_copy h hl rfl (fun p ho => ?_) hq
        cases ho; exact .put _ _ _ _ _ _
    · intro u q hu ho ho'
      cases ho'
      exact (h.other_owner hlast hown hu ho).2 rfl
    · exact opens_close h e rfl h2 hv rfl rfl
    · exact actives_keep h rfl rfl
    · intro j q hq hv'
      exact e.started h hl rfl rfl hq hv'

theorem good_cput (h : Inv r n s a g) (ht : t < n) {i p : Nat} {v : Val} {b : Bool} (hl : s.th t = .copy c k (.put i p v b)) :
    Good r n a (copyStep r s t c k (.put i p v b)) := by
  have hi := h.th t
  rw [hl] at hi
  obtain ⟨h1, _, h2, ⟨x, h3, h4⟩, h5, h6, h7, h8⟩ := hi
  have hlast : k + 1 = s.last := h.level h1 (t := t) (by rw [hl]; simp [dang, dangPc])
  have hown : Owns (s.th t) k p := by rw [hl]; exact .put c k i p v b
  have hc : v ≠ .closed := by rintro rfl; simp at h8
  simp only [copyStep, h5, if_true]
  have e : Sets s.toMem ({ s with val := upd2 s.val (k + 1) p v } : St).toMem (k + 1) p v := ⟨rfl, rfl, rfl, rfl, rfl⟩
  have hpd : pendPc (if b then CopyPc.dec i else .chk i) = pendPc (.put i p v b) := by cases b <;> rfl
  have hct : countPc (if b then CopyPc.dec i else .chk i) = true := by cases b <;> rfl
  have hdg : dangPc (if b then CopyPc.dec i else .chk i) = false := by cases b <;> rfl
  have hno : ∀ q, ¬ Owns (.copy c k (if b then CopyPc.dec i else .chk i)) k q := by
    intro q
    cases b <;> exact not_owns_pc (by simp) (by simp) q
  refine ⟨g, h.copyMove ht hl rfl rfl rfl (fun u => ?_) ?_ (sh_put h hlast h3 h4 h5 h6 h7 h8 e) ?_ ?_ ?_ ?_ ?_ ?_⟩
  · refine e.ext rfl (fun j => dang_copy (fun hd => by rw [hdg] at hd; cases hd)) (fun hc' => ?_) (fun y hy _ => ?_) (Or.inr ?_) u
    · rw [h5] at hc'; cases hc'
    · have hy' : s.key (k + 1) p = some y := hy
      rw [h4] at hy'
      cases hy'
      rcases h8 with rfl | ⟨z, rfl⟩
      · left
        intro u hu
        refine h.sh.gone u ?_
        rw [hu, h.taken hlast h3 h4 h5 h7, h6]
        rfl
      · right
        refine ⟨k + 1, p, Nat.le_refl _, h4, ?_, fun j hj1 hj2 => by omega⟩
        rw [e.this]; rfl
    · intro hd
      exact h.not_done hl rfl (hd k (by omega))
  · intro u k' p' hu ho
    obtain ⟨rfl, hne⟩ := h.other_owner hlast hown hu ho
    exact ⟨e.other (by simp [hne]), rfl⟩
  · cases b <;> exact h2
  · intro j q hq
    by_cases hh : j = k + 1 ∧ q = p
    · obtain ⟨rfl, rfl⟩ := hh
      rw [e.this] at hq
      subst hq
      simp at h8
    · rw [e.other hh] at hq
      obtain ⟨k', u, e1, e2, e3⟩ := h.res j q hq
      refine ⟨k', u, e1, e2, ?_⟩
      have hu : u ≠ t := by
        rintro rfl
        rw [hl] at e3
        have := owns_copy e3
        subst this
        exact hh ⟨e1, owns_put e3⟩
      simp only [St.goto, upd, if_neg hu]
      exact e3
  · intro u q _ _ ho
    exact hno q ho
  · exact opens_keep h e rfl hc (by rw [h5]; simp) hpd
  · exact actives_keep h rfl hct
  · intro j q hq hv'
    exact e.started' h hl hct rfl hc (by rw [h5]; simp) hq hv'

theorem nextSlot_lt (h : Inv r n s a g) (hk : k < s.last) (i : Nat) : nextSlot s.toMem k i < s.cap k :=
  Nat.mod_lt _ (h.sh.pos k (by omega))

theorem good_dec (h : Inv r n s a g) (ht : t < n) {i : Nat} (hl : s.th t = .copy c k (.dec i)) :
    Good r n a (copyStep r s t c k (.dec i)) := by
  have hi := h.th t
  rw [hl] at hi
  obtain ⟨h1, _, h2⟩ := hi
  have ho := h.opens k (by omega)
  have e1 : pend k (s.th t) = 1 := by rw [hl]; simp [pend, pendPc]
  have hp := pend_le (f := fun t => pend k (s.th t)) ht
  simp only [e1] at hp
  refine ⟨g, h.copyHop ht hl rfl rfl ?_ ?_ ?_ ?_ ?_ (Or.inl ?_)⟩
  · intro hd
    split at hd <;> cases hd
  · show PcInv r _ g k (if s.open k = 1 then .leave else .fast (nextSlot s.toMem k i))
    split
    · exact unclosed_zero (by show unclosed s.toMem k = 0; omega)
    · exact nextSlot_lt h h1 i
  · intro p
    split
    · exact no_own (not_owns_pc (by simp) (by simp)) (not_owns_pc (by simp) (by simp)) p
    · exact no_own (not_owns_pc (by simp) (by simp)) (not_owns_pc (by simp) (by simp)) p
  · intro j _
    have hpd : pendPc (if s.open k = 1 then .leave else .fast (nextSlot s.toMem k i)) = false := by split <;> rfl
    rw [pend_of hpd, pend_of (b := true) rfl]
    by_cases hj : k = j
    · subst hj
      simp only [upd, if_true, Bool.toNat_true, Bool.toNat_false]
      omega
    · simp only [if_neg hj, upd, if_neg (Ne.symm hj)]
  · intro j _
    have hct : countPc (if s.open k = 1 then .leave else .fast (nextSlot s.toMem k i)) = true := by split <;> rfl
    rw [counted_of hct, counted_of (b := true) rfl]
  · split <;> rfl

theorem good_chk (h : Inv r n s a g) (ht : t < n) {i : Nat} (hl : s.th t = .copy c k (.chk i)) :
    Good r n a (copyStep r s t c k (.chk i)) := by
  have hi := h.th t
  rw [hl] at hi
  obtain ⟨h1, _, h2⟩ := hi
  have ho := h.opens k (by omega)
  refine ⟨g, h.copyStay ht hl ?_ ?_ ?_ ?_ ?_⟩
  · intro hd
    split at hd <;> cases hd
  · show PcInv r _ g k (if s.open k = 0 then .leave else .fast (nextSlot s.toMem k i))
    split
    · exact unclosed_zero (by show unclosed s.toMem k = 0; omega)
    · exact nextSlot_lt h h1 i
  · intro p
    split
    · exact no_own (not_owns_pc (by simp) (by simp)) (not_owns_pc (by simp) (by simp)) p
    · exact no_own (not_owns_pc (by simp) (by simp)) (not_owns_pc (by simp) (by simp)) p
  · split <;> rfl
  · split <;> rfl

theorem dang_counted {l : Local} (h : dang k l = true) : counted k l = 1 := by
  cases l with
  | copy c j pc =>
    revert h
    simp only [dang, counted]
    split
    · cases pc <;> simp [dangPc, countPc]
    · simp
  | _ => cases h

theorem good_leave (h : Inv r n s a g) (ht : t < n) (hl : s.th t = .copy c k .leave) :
    Good r n a (copyStep r s t c k .leave) := by
  have hi := h.th t
  rw [hl] at hi
  obtain ⟨h1, _, h2⟩ := hi
  have ha := h.actives k (by omega)
  have e1 : counted k (s.th t) = 1 := by rw [hl]; simp [counted, countPc]
  have hp := pend_le (f := fun t => counted k (s.th t)) ht
  simp only [e1] at hp
  refine ⟨g, h.copyHop ht hl rfl rfl ?_ ?_ ?_ ?_ ?_ (Or.inr (Or.inl h2))⟩
  · intro hd
    split at hd <;> cases hd
  · show PcInv r _ g k (if 1 < s.active k then .wait else .adv)
    split
    · exact h2
    · next hlt =>
      have hone := sum_one (f := fun t => counted k (s.th t)) ht (by simp only [e1]; omega)
      refine ⟨h2, fun u => ?_⟩
      simp only [St.goto, upd]
      by_cases hu : u = t
      · simp [hu, dang, dangPc]
      · rw [if_neg hu]
        by_cases hd : dang k (s.th u) = true
        · exfalso
          have := dang_counted hd
          by_cases hun : u < n
          · have := hone u hun hu
            omega
          · rw [h.idle u (by omega)] at this
            cases this
        · exact Bool.eq_false_iff.mpr hd
  · intro p
    split
    · exact no_own (not_owns_pc (by simp) (by simp)) (not_owns_pc (by simp) (by simp)) p
    · exact no_own (not_owns_pc (by simp) (by simp)) (not_owns_pc (by simp) (by simp)) p
  · intro j _
    have hpd : pendPc (if 1 < s.active k then .wait else .adv) = false := by split <;> rfl
    rw [pend_of hpd, pend_of (b := false) rfl]
  · intro j _
    have hct : countPc (if 1 < s.active k then .wait else .adv) = false := by split <;> rfl
    rw [counted_of hct, counted_of (b := true) rfl]
    by_cases hj : k = j
    · subst hj
      simp only [upd, if_true, Bool.toNat_true, Bool.toNat_false]
      omega
    · simp only [if_neg hj, upd, if_neg (Ne.symm hj)]

theorem good_wait (h : Inv r n s a g) (ht : t < n) (hl : s.th t = .copy c k .wait) :
    Good r n a (copyStep r s t c k .wait) := by
  have hi := h.th t
  rw [hl] at hi
  obtain ⟨h1, _, h2⟩ := hi
  simp only [copyStep]
  split
  · next h0 =>
    have hpos := h.sh.pos k (by omega)
    have hd : Done s k := h.quiet h1 h0 hpos (h2 0 hpos)
    refine ⟨g, h.copyStay ht hl (fun hd => by cases hd) (hd.keep rfl rfl (fun _ h => h) (fun hh => by simp [dang, dangPc] at hh))
      (no_own (not_owns_pc (by simp) (by simp)) (not_owns_pc (by simp) (by simp))) rfl rfl⟩
  · exact ⟨g, h.copyStay ht hl (fun hd => by cases hd) h2
      (no_own (not_owns_pc (by simp) (by simp)) (not_owns_pc (by simp) (by simp))) rfl rfl⟩

theorem good_adv (h : Inv r n s a g) (ht : t < n) (hl : s.th t = .copy c k .adv) :
    Good r n a (copyStep r s t c k .adv) := by
  have hi := h.th t
  rw [hl] at hi
  obtain ⟨h1, h2, h3⟩ := hi
  have hp : plain (c.resume k) = true := resume_plain c k
  have hr : LInv r s a g t (c.resume k) := resume_inv h h1 h2 (fun _ => h3)
  have hI : Inv r n (s.goto t (c.resume k)) a g := by
    refine h.local t ht _ (fun k => plain_hd hp k) ((same_plain hp).hop hp hr) (fun j p => ?_) (fun j => ?_) (fun j => ?_)
    · rw [hl]
      refine ⟨fun ho => (plain_owns hp j p ho).elim, fun ho => ?_⟩
      have := owns_copy ho
      subst this
      exact (not_owns_pc (by simp) (by simp) p ho).elim
    · rw [hl, plain_pend hp]; simp [pend, pendPc]
    · rw [hl, plain_counted hp]; simp [counted, countPc]
  simp only [copyStep]
  split
  · next hd =>
    refine ⟨g, ?_, hI.idle, ?_, hI.res, hI.uniq, hI.opens, hI.actives, hI.started, ?_⟩
    · have := hI.sh
      exact { this with
        dl := by show k + 1 ≤ s.last; omega
        sub := fun j y hj => this.sub j y (by show s.data ≤ j; have : k + 1 ≤ j := hj; omega) }
    · intro i hi
      have h3' : Done (s.goto t (c.resume k)) k := h3.keep rfl rfl (fun _ h => h) (plain_hd hp k)
      rcases hi with hi | hi
      · exact hI.done i (Or.inl hi)
      · have hi' : i < k + 1 := hi
        by_cases hik : i = k
        · subst hik; exact h3'
        · exact hI.done i (Or.inr (by show i < s.data; omega))
    · intro u
      have hA : ∀ {o j}, At (s.goto t (c.resume k)) a u o j → At ({ s with data := k + 1 }.goto t (c.resume k)) a u o j := by
        intro o j h
        exact ⟨h.op, h.le, h.past, h.trail, fun hw i hi => h.chain hw i (by show s.data ≤ i; have : k + 1 ≤ i := hi; omega)⟩
      have hC : ∀ {c' j}, ContInv (s.goto t (c.resume k)) a u j c' → ContInv ({ s with data := k + 1 }.goto t (c.resume k)) a u j c' := by
        intro c' j h
        cases c' with
        | next o => exact ⟨hA h.1, h.2⟩
        | again o => exact h
        | stop => trivial
      have hu := hI.th u
      show LInv r _ a g u ((s.goto t (c.resume k)).th u)
      generalize (s.goto t (c.resume k)).th u = l at hu ⊢
      cases l with
      | idle => trivial
      | props o => exact hu
      | key o j n => exact ⟨hA hu.1, hu.2⟩
      | hash o j n => exact ⟨hA hu.1, hu.2⟩
      | val o j n x => exact ⟨hA hu.1, hu.2⟩
      | cas o j n x => exact ⟨hA hu.1, hu.2⟩
      | re o j n => exact ⟨hA hu.1, hu.2⟩
      | fin j => exact hu
      | rz c j => exact hu
      | link c j m => exact hu
      | help c j => exact ⟨hu.1, hC hu.2⟩
      | copy c j pc => exact ⟨hu.1, hC hu.2.1, by have := hu.2.2; cases pc <;> exact this⟩
  · exact ⟨g, hI⟩

/-- Nobody copies a table which has no successor. -/
theorem Inv.nobody (h : Inv r n s a g) {j : Nat} (hj : s.last ≤ j) (u : Nat) : pend j (s.th u) = 0 ∧ counted j (s.th u) = 0 := by
  have hu := h.th u
  generalize s.th u = l at hu
  cases l with
  | copy c i pc =>
    have hi : i ≠ j := by have := hu.1; omega
    simp [pend, counted, hi]
  | _ => exact ⟨rfl, rfl⟩

theorem sumTo_all_zero {f : Nat → Nat} {n : Nat} (h : ∀ i, f i = 0) : sumTo f n = 0 := by
  induction n with
  | zero => rfl
  | succ n ih => simp [sumTo, ih, h]

theorem sh_link (h : Inv r n s a g) {j m : Nat} (hj : s.last = j) (hp : ∀ i, i < j → Done s i) (hm : 0 < m) :
    Sh r { s.toMem with cap := upd s.cap (j + 1) m, last := j + 1 } a g := by
  have hnew : ∀ p, s.key (j + 1) p = none ∧ s.val (j + 1) p = .tomb := fun p => h.sh.free (j + 1) p (Or.inl (by omega))
  have hcap : ∀ i p y, s.key i p = some y → upd s.cap (j + 1) m i = s.cap i := by
    intro i p y hy
    have := (h.sh.lt hy).1
    simp only [upd]
    rw [if_neg (by omega)]
  refine ⟨?_, ?_, ?_, ?_, h.sh.used, ?_, ?_, h.sh.r1, ?_, ?_, h.sh.r4, ?_, h.sh.gone⟩
  · have := h.sh.dl
    show s.data ≤ j + 1
    omega
  · intro i hi
    have hi' : i ≤ j + 1 := hi
    show 0 < upd s.cap (j + 1) m i
    simp only [upd]
    split
    · exact hm
    · exact h.sh.pos i (by omega)
  · intro i p hi
    by_cases he : i = j + 1
    · subst he; exact hnew p
    · refine h.sh.free i p ?_
      rcases hi with hi | hi
      · left
        have : j + 1 < i := hi
        omega
      · right
        have : upd s.cap (j + 1) m i ≤ p := hi
        simpa [upd, he] using this
  · intro i p y hy
    obtain ⟨b, h1, h2⟩ := h.sh.path i p y hy
    have hc := hcap i p y hy
    have hs : ∀ b, slot r { s.toMem with cap := upd s.cap (j + 1) m, last := j + 1 } i y b = slot r s.toMem i y b := by
      intro b
      simp only [slot, hc]
    refine ⟨b, by rw [hs]; exact h1, ?_⟩
    intro b' hb'
    rw [hs]
    exact h2 b' hb'
  · intro p hv
    have := (hnew p).2
    rw [show s.val (j + 1) p = .closed from hv] at this
    cases this
  · intro i y h1 h2 ⟨q, hq⟩
    have h2' : i < j + 1 := h2
    by_cases he : i = j
    · subst he
      have := (hnew q).1
      rw [show s.key (i + 1) q = some y from hq] at this
      cases this
    · exact h.sh.sub i y h1 (by omega) ⟨q, hq⟩
  · intro i p y h1 h2 _
    refine h.sh.r2 i p y h1 h2 (fun hi i' q hi' hq => ?_)
    exact (hp i' (by omega)).1 q (h.sh.lt hq).2
  · intro p y h1
    have := (hnew p).1
    rw [show s.key (j + 1) p = some y from h1] at this
    cases this
  · intro i p q y h1 h2 h3 h4
    have h1' : i < j + 1 := h1
    by_cases he : i = j
    · subst he
      have := (hnew q).1
      rw [show s.key (i + 1) q = some y from h4] at this
      cases this
    · exact h.sh.one i p q y (by omega) h2 h3 h4

theorem good_link (h : Inv r n s a g) (ht : t < n) {j m : Nat} (hl : s.th t = .link c j m) : Good r n a (linkStep s t c j m) := by
  have hi := h.th t
  rw [hl] at hi
  obtain ⟨hr, hm⟩ := hi
  have hp : plain (s.th t) = true := by rw [hl]; rfl
  simp only [linkStep]
  split
  · next hj =>
    have hpast := hr.2.1
    have hd : ∀ i, dang i (.copy c j .start) = true → ¬ Done s i := fun i => dang_copy (fun hd => by cases hd)
    have hdone : ∀ i, i < s.last → Done s i → Done ({ s with cap := upd s.cap (j + 1) m, «open» := upd s.open (j + 1) m, active := upd s.active (j + 1) 0, last := j + 1 }.goto t (.copy c j .start)) i := by
      intro i hi hh
      refine hh.keep rfl ?_ (fun _ h => h) (hd i)
      show upd s.cap (j + 1) m i = s.cap i
      simp only [upd]
      rw [if_neg (by omega)]
    refine ⟨g, h.move (s1 := { s with cap := upd s.cap (j + 1) m, «open» := upd s.open (j + 1) m, active := upd s.active (j + 1) 0, last := j + 1 })
      t ht _ rfl rfl ?_ (fun _ _ _ _ _ => ⟨rfl, rfl⟩) (sh_link h hj hpast hm) ?_ ?_ ?_ ?_ ?_ ?_ ?_⟩
    · refine ⟨?_, Nat.le_refl _, ?_, fun _ _ _ h => h, fun _ _ h => h, hdone, fun _ _ => rfl, fun _ _ h => h, fun _ _ h => h,
        fun m p y h1 h2 => Or.inr ⟨m, p, Nat.le_refl _, h1, h2, fun i h3 h4 => by omega⟩, fun _ _ _ _ _ _ => Or.inl rfl⟩
      · show s.last ≤ j + 1; omega
      · intro i hi
        show upd s.cap (j + 1) m i = s.cap i
        simp only [upd]
        rw [if_neg (by omega)]
    · refine ⟨Nat.lt_succ_self j, ?_, trivial⟩
      have h3 := hr.2.2
      cases c with
      | next o => exact h3.elim
      | again o => exact h3
      | stop => trivial
    · intro i hi
      have hi' : i + 1 < j + 1 ∨ i < s.data := hi
      have := h.sh.dl
      exact hdone i (by omega) (hpast i (by omega))
    · intro i p hv
      obtain ⟨k', u, h1, h2, h3⟩ := h.res i p hv
      exact (h.not_reserved (fun i' hi' => hpast i' (by omega)) hv).elim
    · intro u i p _ _ ho
      have := owns_copy ho
      subst this
      exact not_owns_pc (by simp) (by simp) p ho
    · intro i hi
      have hi' : i ≤ j + 1 := hi
      have e1 : pend i (s.th t) = 0 := plain_pend hp i
      have e2 : pend i (.copy c j .start) = 0 := by rw [pend_of (b := false) rfl]; simp
      rw [e1, e2]
      show upd s.open (j + 1) m i + 0 = unclosed { s.toMem with cap := upd s.cap (j + 1) m, last := j + 1 } i + _ + 0
      by_cases he : i = j + 1
      · subst he
        have hz : sumTo (fun t => pend (j + 1) (s.th t)) n = 0 := sumTo_all_zero (fun u => (h.nobody (by omega) u).1)
        have hu : unclosed { s.toMem with cap := upd s.cap (j + 1) m, last := j + 1 } (j + 1) = m := by
          simp only [unclosed, upd, if_true]
          rw [← sumTo_const_one m]
          rw [sumTo_const_one]
          refine Eq.trans (sumTo_congr fun q _ => ?_) (sumTo_const_one m)
          rw [(h.sh.free (j + 1) q (Or.inl (by omega))).2]
          rfl
        rw [hz, hu]
        simp [upd]
      · have h1 := h.opens i (by omega)
        have hu : unclosed { s.toMem with cap := upd s.cap (j + 1) m, last := j + 1 } i = unclosed s.toMem i :=
          unclosed_congr (by simp [upd, he]) (fun _ => Iff.rfl)
        rw [hu]
        simp only [upd, if_neg he]
        exact h1
    · intro i hi
      have hi' : i ≤ j + 1 := hi
      have e1 : counted i (s.th t) = 0 := plain_counted hp i
      have e2 : counted i (.copy c j .start) = 0 := by rw [counted_of (b := false) rfl]; simp
      rw [e1, e2]
      show upd s.active (j + 1) 0 i + 0 = _
      by_cases he : i = j + 1
      · subst he
        rw [sumTo_all_zero (fun u => (h.nobody (by omega) u).2)]
        simp [upd]
      · simp only [upd, if_neg he]
        exact h.actives i (by omega)
    · intro i q hq hv
      have hne : i ≠ j + 1 := by
        rintro rfl
        have := (h.sh.free (j + 1) q (Or.inl (by omega))).2
        rw [show s.val (j + 1) q = .closed from hv] at this
        cases this
      have hq' : q < s.cap i := by
        have : q < upd s.cap (j + 1) m i := hq
        simpa [upd, hne] using this
      rcases h.started i q hq' hv with h1 | ⟨u, hu⟩
      · left
        intro p hp'
        have : p < upd s.cap (j + 1) m i := hp'
        exact h1 p (by simpa [upd, hne] using this)
      · right
        refine ⟨u, ?_⟩
        have : u ≠ t := by
          rintro rfl
          rw [plain_counted hp] at hu; cases hu
        simp only [St.goto, upd, if_neg this]
        exact hu
  · next hj => exact good_helps h ht hp hr (by have := hr.1; omega)

theorem good_copy (h : Inv r n s a g) (hw : r.wait = true) (ht : t < n) (hl : s.th t = .copy c k pc) : Good r n a (copyStep r s t c k pc) := by
  cases pc with
  | start => exact good_start h ht hl
  | inc i => exact good_inc h ht hl
  | fast i => exact good_cfast h ht hl
  | rd i => exact good_rd h ht hl
  | key i => exact good_ckey h hw ht hl
  | claim i x hb b => exact good_claims h ht hl
  | rsv i p => exact good_crsv h ht hl
  | swap i p => exact good_cswap h ht hl
  | put i p v b => exact good_cput h ht hl
  | dec i => exact good_dec h ht hl
  | chk i => exact good_chk h ht hl
  | leave => exact good_leave h ht hl
  | wait => exact good_wait h ht hl
  | adv => exact good_adv h ht hl

/-- Every step keeps the invariant. -/
theorem step_good (h : Inv r n s a g) (hw : r.wait = true) (ht : t < n) (ch : Choice) : Good r n a (step r s t ch) := by
  unfold step
  generalize hl : s.th t = l
  cases l with
  | idle =>
    cases ch with
    | op o => exact good_idle h ht hl o
    | _ => trivial
  | props o => exact good_props h ht hl
  | key o j m => exact good_key h ht hl ch
  | hash o j m => exact good_hash h ht hl _
  | val o j m x =>
    cases o with
    | get y => exact good_find h ht hl
    | set y v => exact good_val h ht hl rfl
    | del y => exact good_val h ht hl rfl
  | cas o j m x => exact good_cas h ht hl
  | re o j m => exact good_re h ht hl
  | fin j => exact good_fin h ht hl ch
  | rz c j => exact good_rz h ht hl ch
  | link c j m => exact good_link h ht hl
  | help c j => exact good_help h ht hl
  | copy c j pc => exact good_copy h hw ht hl

theorem fresh_inv (r : Rules) (n : Nat) {m : Nat} (hm : 0 < m) : Inv r n (fresh m) Abs.empty (fun _ => none) := by
  refine ⟨?_, fun _ _ => rfl, ?_, ?_, ?_, ?_, ?_, ?_, fun _ => trivial⟩
  · refine ⟨Nat.le_refl _, ?_, fun _ _ _ => ⟨rfl, rfl⟩, ?_, ?_, ?_, ?_, ?_, fun _ _ _ _ _ _ => rfl, ?_, ?_, ?_, fun _ _ => rfl⟩
    · intro j hj
      have : j = 0 := Nat.le_zero.mp hj
      subst this
      exact hm
    · intro j p y hy; cases hy
    · intro j p hv; cases hv
    · intro p hv; cases hv
    · intro j y _ hj; exact absurd hj (Nat.not_lt_zero _)
    · intro j p y x hy; cases hy
    · intro p y hy; cases hy
    · intro y x hy; cases hy
    · intro j p q y _ hy; cases hy
  · intro i hi
    rcases hi with hi | hi <;> exact absurd hi (Nat.not_lt_zero _)
  · intro j p hv; cases hv
  · intro u v k p ho; cases ho
  · intro k hk
    have : k = 0 := Nat.le_zero.mp hk
    subst this
    have h1 : sumTo (fun t => pend 0 ((fresh m).th t)) n = 0 := sumTo_all_zero (fun _ => rfl)
    have h2 : unclosed (fresh m).toMem 0 = m := Eq.trans (sumTo_congr fun _ _ => rfl) (sumTo_const_one m)
    rw [h1, h2]
    rfl
  · intro k hk
    exact (sumTo_all_zero (fun _ => rfl)).symm
  · intro k i _ hv; cases hv

end

end Verif.PropTab
