import Verif.Conc.ArrayStep

/-! Steps of `copy_buf` keep the invariant. -/
namespace Verif.Conc

variable {n : Nat} {s : St} {l : List Nat} {t : Nat} {c : Cont} {k : Nat}

theorem now_of_open (h : Sh s.toMem l) (hk : k < s.last) {i : Nat} (hi : i < s.cap k) (hc : s.mem k i ≠ .closed) : k = s.data := by
  have h1 := h.ld
  by_cases hd : k < s.data
  · exact absurd (h.past k i hd hi) hc
  · have : s.last ≤ s.data + 1 := h1
    omega

theorem grower_copy (c : Cont) (k k' : Nat) (pc pc' : CopyPc) : grower (.copy c k pc) = grower (.copy c k' pc') := by
  cases c <;> rfl

theorem good_start (h : Inv n s l) (ht : t < n) (ch : Choice) (hl : s.th t = .copy c k .start) : Good n l (copyStep s t c k .start ch) := by
  have hi := h.th t
  rw [hl] at hi
  obtain ⟨hk, hc, _, _⟩ := hi
  have hpos : 0 < s.cap k := by
    by_cases hk0 : k = 0
    · subst hk0
      cases c with
      | op o => have := hc.2.1; have : o.index < s.cap 0 := this; omega
      | grow g m => exact hc.1
    · exact h.sh.pos k (by omega) (by have : k < s.last := hk; show k ≤ s.last; omega)
  unfold copyStep
  simp only [Good]
  refine h.local t ht _ ⟨hk, hc, ⟨Nat.mod_lt _ hpos, by simp⟩, by intro _ _ ho; cases ho⟩ ?_ ?_ ?_
  · intro _ _ _ ho; cases ho
  · rw [hl]; exact grower_copy _ _ _ _ _
  · intro k'; rw [hl]; rfl

theorem good_rd (h : Inv n s l) (ht : t < n) (ch : Choice) (i : Nat) (d : Slot) (hl : s.th t = .copy c k (.rd i d)) :
    Good n l (copyStep s t c k (.rd i d) ch) := by
  have hi := h.th t
  rw [hl] at hi
  obtain ⟨hk, hc, ⟨hic, hd⟩, hown⟩ := hi
  have hic' : i < s.cap k := hic
  unfold copyStep
  dsimp only
  rw [if_pos hic']
  split
  · next hm =>
    exact h.local t ht _ ⟨hk, hc, hic, by intro _ _ ho; cases ho⟩ (by intro _ _ _ ho; cases ho) (by rw [hl]; exact grower_copy _ _ _ _ _)
      (by intro k'; rw [hl]; rfl)
  · next hm =>
    have hnow := now_of_open h.sh hk hic' hm
    subst hnow
    refine h.local t ht _ ⟨hk, hc, ⟨hic, hd, hm, ?_, ?_⟩, ?_⟩ ?_ (by rw [hl]; exact grower_copy _ _ _ _ _) (by intro k'; rw [hl]; rfl)
    · intro hv
      have hrel := h.sh.rel i
      rw [cell_open hm] at hrel
      by_cases hlt : i < l.length
      · exact hlt
      · exact absurd (hrel.trans (ofList_ge (by omega))) hv
    · intro hdt hv
      cases d with
      | tomb => exact hdt rfl
      | closed => exact hd rfl
      | val w =>
        have := (hown i w (.rd _ _ _ _)).dst
        have he := h.sh.empty i hv
        rw [he] at this; simp at this
    · intro i' v ho
      cases ho
      exact hown _ _ (.rd _ _ _ _)
    · intro k' i' v ho
      cases ho
      rw [hl]
      exact .rd _ _ _ _

theorem good_wr (h : Inv n s l) (ht : t < n) (ch : Choice) (i : Nat) (d v : Slot) (hl : s.th t = .copy c k (.wr i d v)) :
    Good n l (copyStep s t c k (.wr i d v) ch) := by
  have hi := h.th t
  rw [hl] at hi
  obtain ⟨hk, hc, ⟨hic, hd, hv, hlt, hdv⟩, hown⟩ := hi
  have hic' : i < s.cap k := hic
  have hk' : k < s.last := hk
  have hcap := h.sh.caps k hk
  have hin : i < s.cap (k + 1) := Nat.lt_of_lt_of_le hic' hcap
  unfold copyStep
  dsimp only
  rw [if_pos hin]
  split
  · next hm =>
    simp only [Good]
    cases v with
    | closed => exact absurd rfl hv
    | tomb =>
      have hdt : d = .tomb := by
        cases d with
        | tomb => rfl
        | closed => exact absurd rfl hd
        | val w => exact absurd rfl (hdv (by simp))
      subst hdt
      have hsame : s.put (k + 1) i .tomb = s := by
        have := mput_same s.toMem (k + 1) i
        rw [hm] at this
        cases s
        simp only [St.put, St.mk.injEq, and_true]
        exact this
      rw [hsame]
      exact h.local t ht _ ⟨hk, hc, ⟨hic, by simp⟩, by intro _ _ ho; cases ho⟩ (by intro _ _ _ ho; cases ho) (by rw [hl]; exact grower_copy _ _ _ _ _)
        (by intro k'; rw [hl]; rfl)
    | val w =>
      have hlen := hlt (by simp)
      -- the slot of the current buffer is still open
      have hsrc : k = s.data ∧ s.mem k i ≠ .closed ∧ s.mem k i ≠ .tomb := by
        have key : ∀ (hkd : k = s.data) (ho : s.mem k i ≠ .closed), k = s.data ∧ s.mem k i ≠ .closed ∧ s.mem k i ≠ .tomb := by
          intro hkd ho
          refine ⟨hkd, ho, ?_⟩
          subst hkd
          have := h.sh.ne_tomb hlen
          rw [cell_open ho] at this
          exact this
        cases d with
        | closed => exact absurd rfl hd
        | val u =>
          have := hown i u (.wr _ _ _ _ _)
          exact key this.now this.src
        | tomb =>
          have hld : s.last ≤ s.data + 1 := h.sh.ld
          have hkd : k = s.data := by
            by_cases hkd : k = s.data
            · exact hkd
            · by_cases hk1 : k + 1 = s.data
              · have := h.sh.ne_tomb hlen
                rw [cell_open (by show s.mem s.data i ≠ _; rw [← hk1, hm]; simp)] at this
                exact absurd (by show s.mem s.data i = _; rw [← hk1]; exact hm) this
              · have := h.sh.past (k + 1) i (by show k + 1 < s.data; omega) hin
                rw [this] at hm; simp at hm
          refine key hkd ?_
          intro hcl
          subst hkd
          have := h.sh.ne_tomb hlen
          rw [cell_closed hcl] at this
          exact this hm
      obtain ⟨hkd, ho, hnt⟩ := hsrc
      subst hkd
      have hld : s.last = s.data + 1 := by have : s.last ≤ s.data + 1 := h.sh.ld; omega
      have hnm : s.mem (s.data + 1) i ≠ .closed := by rw [hm]; exact hd
      -- nobody else has written to the slot
      have hno : ∀ t' v', t' ≠ t → ¬ Owns (s.th t') s.data i v' := by
        intro t' v' hne hot
        cases d with
        | closed => exact hd rfl
        | tomb =>
          have := (hot.inv (h.th t')).dst
          rw [hm] at this; simp at this
        | val u => exact hne (h.uniq t' t _ _ _ _ hot (by rw [hl]; exact .wr _ _ _ _ _))
      have hdst : (mput s.toMem (s.data + 1) i (.val w)).mem (s.data + 1) i = .val w := by rw [mput_eq]; simp
      have hsr : ∀ j, (mput s.toMem (s.data + 1) i (.val w)).mem s.data j = s.mem s.data j := by intro j; rw [mput_eq, if_neg (by omega)]
      have hmono : ∀ k' i', s.mem k' i' = .closed → (mput s.toMem (s.data + 1) i (.val w)).mem k' i' = .closed := by
        intro k' i' hcl
        rw [mput_eq, if_neg (by rintro ⟨rfl, rfl⟩; exact hnm hcl)]
        exact hcl
      refine h.move (s1 := s.put (s.data + 1) i (.val w)) t ht _ rfl rfl (h.sh.ahead hld ho hnt) ?_ ?_ ?_ rfl
        (by rw [hl]; exact grower_copy _ _ _ _ _) h.free ?_
      · intro t' hne hL
        refine LInv.mono hL rfl rfl rfl rfl hmono (Nat.le_refl _) (fun _ => rfl) ?_
        intro k' i' v' hot hinv
        refine ⟨hinv.now, ?_, ?_⟩
        · show (mput s.toMem (s.data + 1) i (.val w)).mem k' i' ≠ _
          rw [hinv.now, hsr, ← show k' = s.data from hinv.now]
          exact hinv.src
        · show (mput s.toMem (s.data + 1) i (.val w)).mem (k' + 1) i' = _
          rw [mput_eq, if_neg]
          · exact hinv.dst
          · rintro ⟨hk1, rfl⟩
            have : k' = s.data := hinv.now
            subst this
            exact hno t' v' hne hot
      · refine ⟨hk, ?_, ⟨hic, by simp⟩, ?_⟩
        · cases c with
          | op o => exact ⟨hc.1, hc.2.1, hmono _ _ hc.2.2⟩
          | grow g m => exact hc
        · intro i' v' hot
          cases hot
          exact ⟨rfl, by show (mput s.toMem (s.data + 1) i (.val w)).mem s.data i ≠ _; rw [hsr]; exact ho, hdst⟩
      · intro t' k' i' v' v'' hne h1 h2
        cases h2
        exact hno t' v' hne h1
      · intro k' hk'
        have h1 : unclosed (s.put (s.data + 1) i (.val w)).toMem k' = unclosed s.toMem k' := unclosed_put (m := s.toMem) hnm (by simp) k'
        have h2 : (s.put (s.data + 1) i (.val w)).open k' = s.open k' := rfl
        have := h.count k' hk'
        have e1 : pend k' (s.th t) = 0 := by rw [hl]; rfl
        have e2 : pend k' (.copy c s.data (.cl i (.val w))) = 0 := rfl
        rw [h1, h2, e1, e2]
        exact this
  · exact h.local t ht _ ⟨hk, hc, hic, by intro _ _ ho; cases ho⟩ (by intro _ _ _ ho; cases ho) (by rw [hl]; exact grower_copy _ _ _ _ _)
      (by intro k'; rw [hl]; rfl)

theorem good_cl (h : Inv n s l) (ht : t < n) (ch : Choice) (i : Nat) (v : Slot) (hl : s.th t = .copy c k (.cl i v)) :
    Good n l (copyStep s t c k (.cl i v) ch) := by
  have hi := h.th t
  rw [hl] at hi
  obtain ⟨hk, hc, ⟨hic, hv⟩, hown⟩ := hi
  have hic' : i < s.cap k := hic
  have hk' : k < s.last := hk
  unfold copyStep
  dsimp only
  rw [if_pos hic']
  split
  · next hm =>
    obtain ⟨hm, _⟩ := hm
    simp only [Good]
    have ho : s.mem k i ≠ .closed := by rw [hm]; exact hv
    have hkd := now_of_open h.sh hk hic' ho
    subst hkd
    have hld : s.last = s.data + 1 := by have : s.last ≤ s.data + 1 := h.sh.ld; omega
    have hdst : s.mem (s.data + 1) i = s.mem s.data i := by
      rw [hm]
      cases v with
      | closed => exact absurd rfl hv
      | tomb => exact h.sh.empty i hm
      | val w => exact (hown i w (.cl _ _ _ _)).dst
    have hno : ∀ t' v', t' ≠ t → ¬ Owns (s.th t') s.data i v' := by
      intro t' v' hne hot
      cases v with
      | closed => exact hv rfl
      | tomb =>
        have := (hot.inv (h.th t')).dst
        have he := h.sh.empty i hm
        rw [he] at this; simp at this
      | val u => exact hne (h.uniq t' t _ _ _ _ hot (by rw [hl]; exact .cl _ _ _ _))
    have hmono : ∀ k' i', s.mem k' i' = .closed → (mput s.toMem s.data i .closed).mem k' i' = .closed := by
      intro k' i' hcl
      rw [mput_eq]
      split
      · rfl
      · exact hcl
    refine h.move (s1 := s.put s.data i .closed) t ht _ rfl rfl (h.sh.close hld ho hic hdst) ?_ ?_ ?_ rfl
        (by rw [hl]; exact grower_copy _ _ _ _ _) h.free ?_
    · intro t' hne hL
      refine LInv.mono hL rfl rfl rfl rfl hmono (Nat.le_refl _) (fun _ => rfl) ?_
      intro k' i' v' hot hinv
      have hkd : k' = s.data := hinv.now
      subst hkd
      refine ⟨rfl, ?_, ?_⟩
      · show (mput s.toMem s.data i .closed).mem s.data i' ≠ _
        rw [mput_eq, if_neg]
        · exact hinv.src
        · rintro ⟨_, rfl⟩
          exact hno t' v' hne hot
      · show (mput s.toMem s.data i .closed).mem (s.data + 1) i' = _
        rw [mput_eq, if_neg (by omega)]
        exact hinv.dst
    · refine ⟨hk, ?_, hic, by intro _ _ ho; cases ho⟩
      cases c with
      | op o => exact ⟨hc.1, hc.2.1, hmono _ _ hc.2.2⟩
      | grow g m => exact hc
    · intro t' k' i' v' v'' hne h1 h2
      cases h2
    · intro k' hk'
      have h1 := unclosed_close (m := s.toMem) ho hic k'
      have h2 : (s.put s.data i .closed).open k' = s.open k' := rfl
      have h3 : (s.put s.data i .closed).toMem = mput s.toMem s.data i .closed := rfl
      have := h.count k' hk'
      have e1 : pend k' (s.th t) = 0 := by rw [hl]; rfl
      have e2 : pend k' (.copy c s.data (.dec i)) = if s.data = k' then 1 else 0 := rfl
      rw [h2, h3, e1, e2, this, ← h1]
      omega
  · refine h.local t ht _ ⟨hk, hc, ⟨hic, hv⟩, ?_⟩ ?_ (by rw [hl]; exact grower_copy _ _ _ _ _) (by intro k'; rw [hl]; rfl)
    · intro i' v' ho
      cases ho
      exact hown _ _ (.cl _ _ _ _)
    · intro k' i' v' ho
      cases ho
      rw [hl]
      exact .cl _ _ _ _

theorem nextSlot_lt (i : Nat) (h : i < s.cap k) : nextSlot s k i < s.cap k := by
  unfold nextSlot
  split <;> omega

theorem good_chk (h : Inv n s l) (ht : t < n) (ch : Choice) (i : Nat) (hl : s.th t = .copy c k (.chk i)) :
    Good n l (copyStep s t c k (.chk i) ch) := by
  have hi := h.th t
  rw [hl] at hi
  obtain ⟨hk, hc, hic, _⟩ := hi
  unfold copyStep
  dsimp only
  split
  · next ho =>
    have hcount := h.count k (by have : k < s.last := hk; omega)
    refine h.local t ht _ ⟨hk, hc, fun j hj => unclosed_zero (by omega) j hj, by intro _ _ ho; cases ho⟩ (by intro _ _ _ ho; cases ho)
      (by rw [hl]; exact grower_copy _ _ _ _ _) (by intro k'; rw [hl]; rfl)
  · exact h.local t ht _ ⟨hk, hc, ⟨nextSlot_lt i hic, by simp⟩, by intro _ _ ho; cases ho⟩ (by intro _ _ _ ho; cases ho)
      (by rw [hl]; exact grower_copy _ _ _ _ _) (by intro k'; rw [hl]; rfl)

theorem good_dec (h : Inv n s l) (ht : t < n) (ch : Choice) (i : Nat) (hl : s.th t = .copy c k (.dec i)) :
    Good n l (copyStep s t c k (.dec i) ch) := by
  have hi := h.th t
  rw [hl] at hi
  obtain ⟨hk, hc, hic, _⟩ := hi
  have hcount := h.count k (by have : k < s.last := hk; omega)
  have hp1 : pend k (s.th t) = 1 := by rw [hl]; exact if_pos rfl
  have hp : 1 ≤ sumTo (fun t => pend k (s.th t)) n := by
    have := pend_le (f := fun t => pend k (s.th t)) ht
    rw [← hp1]; exact this
  have move : ∀ pc, PcInv s.toMem l k pc → (∀ i v, ¬ Owns (.copy c k pc) k i v) → (∀ k', pend k' (.copy c k pc) = 0) →
      Inv n ({ s with «open» := upd s.open k (s.open k - 1) }.goto t (.copy c k pc)) l := by
    intro pc hpc hno hpz
    refine h.move (s1 := { s with «open» := upd s.open k (s.open k - 1) }) t ht _ rfl rfl ?_ ?_ ?_ ?_ rfl (by rw [hl]; exact grower_copy _ _ _ _ _) h.free ?_
    · exact ⟨h.sh.dl, h.sh.ld, h.sh.caps, h.sh.pos, h.sh.past, h.sh.front, h.sh.free, h.sh.outside, h.sh.size, h.sh.len, h.sh.empty, h.sh.rel⟩
    · intro t' hne hL
      exact LInv.mono hL rfl rfl rfl rfl (fun _ _ h => h) (Nat.le_refl _) (fun _ => rfl) (fun _ _ _ _ h => ⟨h.now, h.src, h.dst⟩)
    · refine ⟨hk, ?_, ?_, fun i v ho => absurd ho (hno i v)⟩
      · cases c with
        | op o => exact hc
        | grow g m => exact hc
      · cases pc <;> exact hpc
    · intro t' k' i' v v' hne h1 h2
      have : k' = k := by cases h2 <;> rfl
      subst this
      exact absurd h2 (hno i' v')
    · intro k' hk'
      have h2 : unclosed ({ s with «open» := upd s.open k (s.open k - 1) } : St).toMem k' = unclosed s.toMem k' := rfl
      have := h.count k' hk'
      have e1 : pend k' (s.th t) = if k = k' then 1 else 0 := by rw [hl]; rfl
      have e2 : ({ s with «open» := upd s.open k (s.open k - 1) } : St).open k' = if k' = k then s.open k - 1 else s.open k' := rfl
      rw [h2, hpz, e1, e2]
      by_cases hkk : k = k'
      · subst hkk
        simp only [if_true]
        omega
      · rw [if_neg hkk, if_neg (Ne.symm hkk)]
        omega
  unfold copyStep
  dsimp only
  split
  · exact move .fin (fun j hj => unclosed_zero (by omega) j hj) (by intro _ _ ho; cases ho) (by intro _; rfl)
  · exact move (.rd (nextSlot s k i) .tomb) ⟨nextSlot_lt i hic, by simp⟩ (by intro _ _ ho; cases ho) (by intro _; rfl)

/-- The new buffer becomes the current one. -/
theorem Sh.advance {m : Mem} (h : Sh m l) (hl : m.last = m.data + 1) (hc : ∀ i, i < m.cap m.data → m.mem m.data i = .closed) :
    Sh { m with data := m.data + 1 } l := by
  have hcap := h.caps m.data (by omega)
  refine ⟨by simp [hl], by simp [hl], h.caps, h.pos, ?_, h.front, h.free, ?_, Nat.le_trans h.size hcap, h.len, ?_, ?_⟩
  · intro k i hk hi
    have hk : k < m.data + 1 := hk
    have hi : i < m.cap k := hi
    by_cases hk' : k = m.data
    · subst hk'; exact hc i hi
    · exact h.past k i (by omega) hi
  · intro i hi
    have hi : m.cap (m.data + 1) ≤ i := hi
    exact ⟨(h.outside i (by omega)).2, h.free _ _ (by show m.last < m.data + 1 + 1; omega)⟩
  · intro i _
    exact h.free _ _ (by show m.last < m.data + 1 + 1; omega)
  · intro i
    rw [← h.rel i]
    have hf := h.front i
    rw [hl] at hf
    rw [cell_open (m := { m with data := m.data + 1 }) hf]
    by_cases hi : i < m.cap m.data
    · rw [cell_closed (hc i hi)]
    · have := h.outside i (by omega)
      rw [cell_open (by rw [this.1]; simp), this.1]
      exact this.2

theorem good_fin (h : Inv n s l) (ht : t < n) (ch : Choice) (hl : s.th t = .copy c k .fin) :
    Good n l (copyStep s t c k .fin ch) := by
  have hi := h.th t
  rw [hl] at hi
  obtain ⟨hk, hc, hall, _⟩ := hi
  have hk' : k < s.last := hk
  have hld : s.last ≤ s.data + 1 := h.sh.ld
  have hcap : s.cap k ≤ s.cap (k + 1) := h.sh.caps k hk
  have hres : ∀ m : Mem, m.cap = s.cap → m.last = s.last → m.size = s.size → m.mem = s.mem → (m.data = k + 1 ∨ s.data ≠ k ∧ m.data = s.data) →
      LInv m l (c.resume k) := by
    intro m h1 h2 h3 h4 h5
    have hdl : s.data ≤ s.last := h.sh.dl
    cases c with
    | op o =>
      obtain ⟨q1, q2, q3⟩ := hc
      have q2 : o.index < s.cap k := q2
      refine ⟨by rw [h2]; omega, by rw [h1]; omega, ?_, ?_⟩
      · intro hd
        rcases h5 with h5 | ⟨h5, h6⟩
        · omega
        · omega
      · intro i v ho; subst ho; simp [Op.isPush] at q1
    | grow g a =>
      obtain ⟨_, q1, q2, q3⟩ := hc
      have q1 : s.last = k + 1 := q1
      refine ⟨?_, ?_⟩
      · rcases h5 with h5 | ⟨h5, h6⟩
        · omega
        · omega
      · simp only [GrowInv]
        rw [h3]; exact ⟨q2, q3⟩
  have hno : ∀ k' i v, ¬ Owns (c.resume k) k' i v := by
    intro k' i v ho; cases c <;> cases ho
  have hgr : grower (c.resume k) = grower (s.th t) := by
    rw [hl]
    cases c with
    | op o => exact hc.1
    | grow g a => rfl
  have hpz : ∀ k', pend k' (c.resume k) = 0 := by intro k'; cases c <;> rfl
  unfold copyStep
  dsimp only
  split
  · next hd =>
    subst hd
    have hla : s.last = s.data + 1 := by omega
    refine h.move (s1 := { s with data := s.data + 1 }) t ht _ rfl rfl (h.sh.advance hla hall) ?_ (hres _ rfl rfl rfl rfl (Or.inl rfl)) ?_ rfl hgr ?_ ?_
    · intro t' hne hL
      have hnoown : ∀ k i v, ¬ Owns (s.th t') k i v := by
        intro k i v ho
        have h1 := (ho.inv hL)
        have hk : k = s.data := h1.now
        subst hk
        exact h1.src (hall i (ho.lt hL).2)
      have hat : ∀ o k, At s.toMem l o k → grower (s.th t') = o.isPush → At { s with data := s.data + 1 }.toMem l o k := by
        intro o k ha hg
        refine ⟨ha.le, ha.lt, ?_, ?_⟩
        · intro hd
          have h1 : s.data + 1 < k := hd
          have h2 : k ≤ s.last := ha.le
          omega
        · intro i v ho
          have := (ha.push i v ho).1
          have : s.data = s.last := this
          omega
      cases hy : s.th t' with
      | idle => trivial
      | size o => rw [hy] at hL; exact hL
      | data o => rw [hy] at hL; exact ⟨hL.1, Nat.lt_of_lt_of_le hL.2 hcap⟩
      | acc o k => rw [hy] at hL; exact hat o k hL (by rw [hy]; rfl)
      | next o k => rw [hy] at hL; exact ⟨hat o k hL.1 (by rw [hy]; rfl), hL.2⟩
      | swap o k cur => rw [hy] at hL; exact ⟨hat o k hL.1 (by rw [hy]; rfl), hL.2⟩
      | copy c' k' pc =>
        rw [hy] at hL hnoown
        obtain ⟨h1, h2, h3, _⟩ := hL
        refine ⟨h1, ?_, ?_, fun i v ho => absurd ho (hnoown k' i v)⟩
        · cases c' <;> exact h2
        · cases pc <;> exact h3
      | grow g pc =>
        rw [hy] at hL
        have : s.data = s.last := hL.1
        omega
    · intro t' k' i v v' _ _ ho
      exact absurd ho (hno k' i v')
    · intro hb
      have := (h.free hb).1
      omega
    · intro k' hk'
      have := h.count k' hk'
      rw [hl, hpz]
      exact this
  · next hd =>
    exact h.local t ht _ (hres s.toMem rfl rfl rfl rfl (Or.inr ⟨hd, rfl⟩)) (by intro k' i v ho; exact absurd ho (hno k' i v)) hgr
      (by intro k'; rw [hl, hpz]; rfl)

end Verif.Conc
