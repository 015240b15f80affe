import Verif.Conc.ObjectWrite

/-!
Steps of `copy_table` and `salvage_item` keep the invariant.
-/
namespace Verif.PropTab
open Verif.Conc (upd sumTo sumTo_congr sumTo_upd sumTo_zero pend_le sumTo_const_one)

section
variable {r : Rules} {n : Nat} {s s1 : St} {a : Abs} {g g' : Nat → Option Nat} {t k : Nat} {c : Cont} {pc pc' : CopyPc}

theorem Inv.not_done (_ : Inv r n s a g) (hl : s.th t = .copy c k pc) (hd : dangPc pc = true) : ¬ Done s k := by
  intro hh
  have := hh.2 t
  rw [hl] at this
  simp [dang, hd] at this

theorem dang_copy {i : Nat} (hd : dangPc pc' = true → ¬ Done s k) : dang i (.copy c k pc') = true → ¬ Done s i := by
  intro h
  simp only [dang] at h
  split at h
  · next he => subst he; exact hd h
  · cases h

theorem owns_copy {i p : Nat} (h : Owns (.copy c k pc) i p) : i = k := by
  cases h <;> rfl

/-- A step of a thread which is copying. -/
theorem Inv.copyMove (h : Inv r n s a g) (ht : t < n) (hl : s.th t = .copy c k pc) (hth : s1.th = s.th) (hlast : s1.last = s.last)
    (hdata : s1.data = s.data) (ext : ∀ u, Ext s (s1.goto t (.copy c k pc')) a a u) (keeps : Keeps s (s1.goto t (.copy c k pc')) g g' t)
    (sh : Sh r s1.toMem a g') (hpc : PcInv r (s1.goto t (.copy c k pc')) g' k pc')
    (res : ∀ j p, s1.val j p = .reserved → ∃ i u, j = i + 1 ∧ j = s.last ∧ Owns ((s1.goto t (.copy c k pc')).th u) i p)
    (own : ∀ u p, u ≠ t → Owns (s.th u) k p → Owns (.copy c k pc') k p → False)
    (opens : ∀ i, i ≤ s.last → s1.open i + pend i (.copy c k pc) = unclosed s1.toMem i + sumTo (fun t => pend i (s.th t)) n + pend i (.copy c k pc'))
    (actives : ∀ i, i ≤ s.last → s1.active i + counted i (.copy c k pc) = sumTo (fun t => counted i (s.th t)) n + counted i (.copy c k pc'))
    (started : ∀ j i, i < s1.cap j → s1.val j i = .closed → allClosed s1.toMem j ∨ ∃ u, counted j ((s1.goto t (.copy c k pc')).th u) = 1) :
    Inv r n (s1.goto t (.copy c k pc')) a g' := by
  have hi := h.th t
  rw [hl] at hi
  refine h.move (s1 := s1) t ht _ hth rfl (ext t) keeps sh ?_ ?_ (by rw [hlast]; exact res) ?_ (by rw [hl, hlast]; exact opens)
    (by rw [hl, hlast]; exact actives) started
  · refine ⟨?_, (ext (t + 1)).cont (by omega) hi.1 hi.2.1, hpc⟩
    show k < s1.last
    rw [hlast]; exact hi.1
  · intro i hi'
    rw [hlast, hdata] at hi'
    exact (ext t).done i (by have := h.sh.dl; omega) (h.done i hi')
  · intro u i p hu h1 h2
    have := owns_copy h2
    subst this
    exact own u p hu h1 h2

/-- The shared memory stays as it is. -/
theorem ext_mem {x : Local} (hm : s1.toMem = s.toMem) (hth : s1.th = s.th) (hd : ∀ i, dang i x = true → ¬ Done s i) (u : Nat) :
    Ext s (s1.goto t x) a a u where
  last := by show s.last ≤ s1.last; rw [hm]; exact Nat.le_refl _
  data := by show s.data ≤ s1.data; rw [hm]; exact Nat.le_refl _
  cap := fun i _ => by show s1.cap i = _; rw [hm]
  key := fun i q y hy => by show s1.key i q = _; rw [hm]; exact hy
  closed := fun i q hy => by show s1.val i q = _; rw [hm]; exact hy
  done := fun i _ hi => hi.keep hth (by rw [hm]) (fun q hq => by rw [hm]; exact hq) (hd i)
  op := fun _ _ => rfl
  gone := fun _ _ h => h
  over := fun _ _ h => h
  live := fun m p k h1 h2 => Or.inr ⟨m, p, Nat.le_refl _, by show s1.key m p = _; rw [hm]; exact h1, by show live (s1.val m p) = _; rw [hm]; exact h2,
    fun i h3 h4 => by omega⟩
  stay := fun i q _ _ _ _ => Or.inl (by show s1.val i q = _; rw [hm])

theorem started_copy (h : Inv r n s a g) (hl : s.th t = .copy c k pc) (hth : s1.th = s.th) (hct : countPc pc' = countPc pc ∨ allClosed s.toMem k ∨ countPc pc' = true)
    {j i : Nat} (hi : i < s.cap j) (hv : s.val j i = .closed) :
    allClosed s.toMem j ∨ ∃ u, counted j ((s1.goto t (.copy c k pc')).th u) = 1 := by
  rcases h.started j i hi hv with h1 | ⟨u, hu⟩
  · exact Or.inl h1
  · by_cases he : u = t
    · subst he
      rw [hl] at hu
      by_cases hk : k = j
      · subst hk
        rcases hct with hct | hct | hct
        · refine Or.inr ⟨u, ?_⟩
          simp only [St.goto, upd, if_true]
          rw [← hu]
          simp [counted, hct]
        · exact Or.inl hct
        · refine Or.inr ⟨u, ?_⟩
          simp [St.goto, upd, counted, hct]
      · simp [counted, hk] at hu
    · refine Or.inr ⟨u, ?_⟩
      simp only [St.goto, upd, if_neg he, hth]
      exact hu

theorem res_copy (h : Inv r n s a g) (hl : s.th t = .copy c k pc) (hth : s1.th = s.th) (hown : ∀ p, Owns (.copy c k pc) k p → Owns (.copy c k pc') k p)
    {j p : Nat} (hv : s.val j p = .reserved) : ∃ i u, j = i + 1 ∧ j = s.last ∧ Owns ((s1.goto t (.copy c k pc')).th u) i p := by
  obtain ⟨i, u, h1, h2, h3⟩ := h.res j p hv
  refine ⟨i, u, h1, h2, ?_⟩
  by_cases he : u = t
  · subst he
    rw [hl] at h3
    have := owns_copy h3
    subst this
    simp only [St.goto, upd, if_true]
    exact hown p h3
  · simp only [St.goto, upd, if_neg he, hth]
    exact h3

/-- A step which changes nothing but the state of the thread and the counters. -/
theorem Inv.copyHop (h : Inv r n s a g) (ht : t < n) (hl : s.th t = .copy c k pc) (hm : s1.toMem = s.toMem) (hth : s1.th = s.th)
    (hd : dangPc pc' = true → ¬ Done s k) (hpc : PcInv r (s1.goto t (.copy c k pc')) g k pc')
    (hown : ∀ p, Owns (.copy c k pc') k p ↔ Owns (.copy c k pc) k p)
    (opens : ∀ i, i ≤ s.last → s1.open i + pend i (.copy c k pc) = s.open i + pend i (.copy c k pc'))
    (actives : ∀ i, i ≤ s.last → s1.active i + counted i (.copy c k pc) = s.active i + counted i (.copy c k pc'))
    (hct : countPc pc' = countPc pc ∨ allClosed s.toMem k ∨ countPc pc' = true) :
    Inv r n (s1.goto t (.copy c k pc')) a g := by
  have hd' : ∀ i, dang i (.copy c k pc') = true → ¬ Done s i := fun i => dang_copy hd
  refine h.copyMove ht hl hth (by rw [hm]) (by rw [hm]) (ext_mem hm hth hd') ?_ (by rw [hm]; exact h.sh) hpc ?_ ?_ ?_ ?_ ?_
  · intro u i p _ _
    exact ⟨by show s1.val _ _ = _; rw [hm], rfl⟩
  · intro j p hv
    rw [hm] at hv
    exact res_copy h hl hth (fun p => (hown p).mpr) hv
  · intro u p hu h1 h2
    refine hu (h.uniq u t k p h1 ?_)
    rw [hl]
    exact (hown p).mp h2
  · intro i hi
    have := opens i hi
    have := h.opens i hi
    rw [hm]
    omega
  · intro i hi
    have := actives i hi
    have := h.actives i hi
    omega
  · rw [hm]
    intro j i hi hv
    exact started_copy h hl hth hct hi hv

/-- No change of the counters. -/
theorem Inv.copyStay (h : Inv r n s a g) (ht : t < n) (hl : s.th t = .copy c k pc)
    (hd : dangPc pc' = true → ¬ Done s k) (hpc : PcInv r (s.goto t (.copy c k pc')) g k pc')
    (hown : ∀ p, Owns (.copy c k pc') k p ↔ Owns (.copy c k pc) k p) (hpd : pendPc pc' = pendPc pc) (hct : countPc pc' = countPc pc) :
    Inv r n (s.goto t (.copy c k pc')) a g :=
  h.copyHop ht hl rfl rfl hd hpc hown (fun i _ => by simp [pend, hpd]) (fun i _ => by simp [counted, hct]) (Or.inl hct)

theorem not_owns_pc (hp : ∀ i p, pc ≠ .swap i p) (hq : ∀ i p v b, pc ≠ .put i p v b) (p : Nat) : ¬ Owns (.copy c k pc) k p := by
  intro h
  cases h with
  | swap _ _ i _ => exact hp i p rfl
  | put _ _ i _ v b => exact hq i p v b rfl

/-- Neither before nor after the step the thread owns a reserved slot. -/
theorem no_own (h1 : ∀ p, ¬ Owns (.copy c k pc) k p) (h2 : ∀ p, ¬ Owns (.copy c k pc') k p) (p : Nat) :
    Owns (.copy c k pc') k p ↔ Owns (.copy c k pc) k p := ⟨fun h => (h2 p h).elim, fun h => (h1 p h).elim⟩

theorem good_start (h : Inv r n s a g) (ht : t < n) (hl : s.th t = .copy c k .start) :
    Good r n a (.ok (s.goto t (.copy c k (.inc (64 * (s.cap k - s.open k) % s.cap k)))) none) := by
  have hi := h.th t
  rw [hl] at hi
  exact ⟨g, h.copyStay ht hl (fun hd => by cases hd) (Nat.mod_lt _ (h.sh.pos k (by have := hi.1; omega)))
    (no_own (not_owns_pc (by simp) (by simp)) (not_owns_pc (by simp) (by simp))) rfl rfl⟩

theorem good_inc (h : Inv r n s a g) (ht : t < n) {i : Nat} (hl : s.th t = .copy c k (.inc i)) :
    Good r n a (.ok ({ s with active := upd s.active k (s.active k + 1) }.goto t (.copy c k (.fast i))) none) := by
  have hi := h.th t
  rw [hl] at hi
  refine ⟨g, h.copyHop ht hl rfl rfl (fun hd => by cases hd) hi.2.2 (no_own (not_owns_pc (by simp) (by simp)) (not_owns_pc (by simp) (by simp))) ?_ ?_
    (Or.inr (Or.inr rfl))⟩
  · intro j _; simp [pend, pendPc]
  · intro j _
    by_cases hj : k = j
    · subst hj; simp [counted, countPc, upd]
    · simp [counted, hj, upd, Ne.symm hj]

theorem good_rd (h : Inv r n s a g) (ht : t < n) {i : Nat} (hl : s.th t = .copy c k (.rd i)) :
    Good r n a (if s.val k i = .closed then .ok (s.goto t (.copy c k (.chk i))) none else .ok (s.goto t (.copy c k (.key i))) none) := by
  have hi := h.th t
  rw [hl] at hi
  obtain ⟨h1, _, h2, h3⟩ := hi
  split
  · exact ⟨g, h.copyStay ht hl (fun hd => by cases hd) h2 (no_own (not_owns_pc (by simp) (by simp)) (not_owns_pc (by simp) (by simp))) rfl rfl⟩
  · next hv =>
    exact ⟨g, h.copyStay ht hl (fun _ hd => hv (hd.1 i h2)) ⟨h2, h3.resolve_left hv⟩
      (no_own (not_owns_pc (by simp) (by simp)) (not_owns_pc (by simp) (by simp))) rfl rfl⟩

theorem good_ckey (h : Inv r n s a g) (hw : r.wait = true) (ht : t < n) {i : Nat} (hl : s.th t = .copy c k (.key i)) :
    Good r n a (match s.key k i with
      | none => .bad
      | some x => if r.wait && !s.hashed k i then .no else .ok (s.goto t (.copy c k (.claim i x (s.hashed k i) 0))) none) := by
  have hi := h.th t
  rw [hl] at hi
  obtain ⟨h1, _, h2, x, h3⟩ := hi
  rw [h3]
  show Good r n a (if r.wait && !s.hashed k i then _ else _)
  rw [hw]
  cases hh : s.hashed k i
  · trivial
  · exact ⟨g, h.copyStay ht hl (fun _ => h.not_done hl rfl) ⟨h2, h3, rfl, seen_zero _ _⟩
      (no_own (not_owns_pc (by simp) (by simp)) (not_owns_pc (by simp) (by simp))) rfl rfl⟩

theorem copySlot_true (m : Mem) (j x b : Nat) : copySlot r m j x true b = slot r m j x b := by
  simp [copySlot, slot]

theorem good_cclaim (h : Inv r n s a g) (ht : t < n) {i x b : Nat} (hl : s.th t = .copy c k (.claim i x true b))
    (hk : s.key (k + 1) (slot r s.toMem (k + 1) x b) = none) (f : Nat → Nat → Bool) :
    Good r n a (.ok ({ s with key := upd2 s.key (k + 1) (slot r s.toMem (k + 1) x b) (some x), hashed := f }.goto t
      (.copy c k (.rsv i (slot r s.toMem (k + 1) x b)))) none) := by
  have hi := h.th t
  rw [hl] at hi
  obtain ⟨h1, _, h2, h3, _, h5⟩ := hi
  have hlast : k + 1 = s.last := h.level h1 (t := t) (by rw [hl]; simp [dang, dangPc])
  have e : Adds s.toMem ({ s with key := upd2 s.key (k + 1) (slot r s.toMem (k + 1) x b) (some x), hashed := f } : St).toMem (k + 1)
      (slot r s.toMem (k + 1) x b) x := ⟨rfl, rfl, rfl, rfl, rfl, hk⟩
  have hn : ¬ has s.toMem (k + 1) x := h.sh.not_has h5 hk
  have sh := e.sh h.sh (by omega) h5 (fun j hj _ => by
      have : j = k := by omega
      subst this; exact ⟨i, h3⟩)
    (by
      intro _ hm
      cases hmap : a.map x with
      | none => rfl
      | some v =>
        exfalso
        obtain ⟨m, q, hq, hlv⟩ := h.sh.r4 x v hmap
        have hle := (h.sh.lt hq).1
        by_cases h6 : m = k + 1
        · subst h6; exact hn ⟨q, hq⟩
        · by_cases h7 : m = k
          · subst h7
            exact live_ne_closed hlv (hm (by omega) m q (by omega) hq)
          · exact h.not_live (h.done m (Or.inl (by omega))) hlv)
    (by intro _ hj; omega)
    (by
      intro _ _ _ _ _
      generalize hv : s.val (k + 1) (slot r s.toMem (k + 1) x b) = v
      have hnl : live v = true → False := by
        intro hlv
        obtain ⟨y, hy⟩ := h.sh.used _ _ (by rw [hv]; exact hlv)
        rw [hk] at hy; cases hy
      cases v with
      | tomb => rfl
      | closed => rw [hlast] at hv; exact (h.sh.front _ hv).elim
      | val v => exact (hnl rfl).elim
      | reserved => exact (hnl rfl).elim)
  refine ⟨g, h.copyMove ht hl rfl rfl rfl (fun u => ?_) (fun _ _ _ _ _ => ⟨rfl, rfl⟩) sh ?_ ?_ ?_ ?_ ?_ ?_⟩
  · have E := Adds.ext (a := a) h (t := t) (x := .copy c k (.rsv i (slot r s.toMem (k + 1) x b))) e rfl (fun j => dang_copy (fun _ => h.not_done hl rfl))
    exact ⟨E.last, E.data, E.cap, E.key, E.closed, E.done, fun _ _ => rfl, fun _ _ h => h, fun _ _ h => h,
      fun m q y h1 h2 => Or.inr ⟨m, q, Nat.le_refl _, e.mono h1, h2, fun i h3 h4 => by omega⟩, fun _ _ _ _ _ _ => Or.inl rfl⟩
  · exact ⟨h2, x, e.mono h3, upd2_same _ _ _ _⟩
  · intro j p hv
    exact res_copy h hl rfl (fun p ho => (not_owns_pc (by simp) (by simp) p ho).elim) hv
  · intro u p _ _ ho
    exact not_owns_pc (by simp) (by simp) p ho
  · intro j hj
    have := h.opens j hj
    simp only [pend, pendPc]
    exact congrArg (· + _) this
  · intro j hj
    have := h.actives j hj
    simp only [counted, countPc]
    exact congrArg (· + _) this
  · intro j q hq hv
    exact started_copy (s1 := { s with key := upd2 s.key (k + 1) (slot r s.toMem (k + 1) x b) (some x), hashed := f })
      (pc' := .rsv i (slot r s.toMem (k + 1) x b)) h hl rfl (Or.inl rfl) hq hv

theorem good_claims (h : Inv r n s a g) (ht : t < n) {i x b : Nat} {hb : Bool} (hl : s.th t = .copy c k (.claim i x hb b)) :
    Good r n a (copyStep r s t c k (.claim i x hb b)) := by
  have hi := h.th t
  rw [hl] at hi
  obtain ⟨h1, _, h2, h3, h4, h5⟩ := hi
  subst h4
  simp only [copyStep, copySlot_true]
  generalize hk : s.key (k + 1) (slot r s.toMem (k + 1) x b) = y
  cases y with
  | none => exact good_cclaim h ht hl hk _
  | some y =>
    show Good r n a (if y = x then _ else _)
    split
    · next he =>
      subst he
      exact ⟨g, h.copyStay ht hl (fun _ => h.not_done hl rfl) ⟨h2, y, h3, hk⟩
        (no_own (not_owns_pc (by simp) (by simp)) (not_owns_pc (by simp) (by simp))) rfl rfl⟩
    · next he =>
      exact ⟨g, h.copyStay ht hl (fun _ => h.not_done hl rfl) ⟨h2, h3, rfl, seen_succ h5 hk he⟩
        (no_own (not_owns_pc (by simp) (by simp)) (not_owns_pc (by simp) (by simp))) rfl rfl⟩

/-- The value of a slot changes on behalf of the copy. -/
theorem Sets.ext {x : Local} {j p : Nat} {v : Val} (e : Sets s.toMem s1.toMem j p v) (hth : s1.th = s.th) (hd : ∀ i, dang i x = true → ¬ Done s i)
    (hc : s.val j p = .closed → v = .closed)
    (hlive : ∀ y, s.key j p = some y → live (s.val j p) = true → (∀ u, (a.op u).key = y → a.gone u = true) ∨
      ∃ m' p', j ≤ m' ∧ s1.key m' p' = some y ∧ live (s1.val m' p') = true ∧ ∀ i, j < i → i ≤ m' → PropTab.has s1.toMem i y)
    (hstay : v = .closed ∨ ¬ ∀ i, i < j → Done s i) (u : Nat) : Ext s (s1.goto t x) a a u where
  last := Nat.le_of_eq e.last.symm
  data := Nat.le_of_eq e.data.symm
  cap := fun i _ => by show s1.cap i = _; rw [e.cap]
  key := fun i q y hy => by show s1.key i q = _; rw [e.key]; exact hy
  closed := fun i q hq => by
    show s1.val i q = _
    by_cases hh : i = j ∧ q = p
    · obtain ⟨rfl, rfl⟩ := hh
      rw [e.this]; exact hc hq
    · rw [e.other hh]; exact hq
  done := fun i _ hi => hi.keep hth (by rw [e.cap]) (fun q hq => by
    by_cases hh : i = j ∧ q = p
    · obtain ⟨rfl, rfl⟩ := hh
      rw [e.this]; exact hc hq
    · rw [e.other hh]; exact hq) (hd i)
  op := fun _ _ => rfl
  gone := fun _ _ h => h
  over := fun _ _ h => h
  live := fun m q y h1 h2 => by
    by_cases hh : m = j ∧ q = p
    · obtain ⟨rfl, rfl⟩ := hh
      rcases hlive y h1 h2 with h3 | h3
      · exact Or.inl (fun u _ hu => h3 u hu)
      · exact Or.inr h3
    · refine Or.inr ⟨m, q, Nat.le_refl _, by show s1.key m q = _; rw [e.key]; exact h1, ?_, fun i h3 h4 => by omega⟩
      show PropTab.live (s1.val m q) = true
      rw [e.other hh]; exact h2
  stay := fun i q y _ _ hdone => by
    by_cases hh : i = j ∧ q = p
    · obtain ⟨rfl, rfl⟩ := hh
      rcases hstay with h1 | h1
      · exact Or.inr (Or.inl (by show s1.val i q = _; rw [e.this]; exact h1))
      · exact (h1 hdone).elim
    · exact Or.inl (e.other hh)

theorem Sets.close {m m1 : Mem} {i : Nat} (e : Sets m m1 k i .closed) (hi : i < m.cap k) (hv : m.val k i ≠ .closed) :
    unclosed m1 k + 1 = unclosed m k := by
  unfold unclosed
  rw [e.cap]
  have h1 := sumTo_upd (fun i => if m.val k i = .closed then 0 else 1) (m.cap k) i 0 hi
  have h2 : sumTo (fun i => if m1.val k i = .closed then 0 else 1) (m.cap k) =
      sumTo (upd (fun i => if m.val k i = .closed then 0 else 1) i 0) (m.cap k) := by
    apply sumTo_congr
    intro q _
    simp only [upd]
    by_cases hq : q = i
    · subst hq; rw [e.this]; simp
    · rw [e.other (by simp [hq]), if_neg hq]
  rw [h2]
  simp only [hv, if_false] at h1
  omega

theorem Sets.keep {m m1 : Mem} {j p : Nat} {v : Val} (e : Sets m m1 j p v) {i : Nat} (h : i = j → v ≠ .closed ∧ m.val j p ≠ .closed) :
    unclosed m1 i = unclosed m i := by
  refine unclosed_congr (by rw [e.cap]) (fun q => ?_)
  by_cases hh : i = j ∧ q = p
  · obtain ⟨rfl, rfl⟩ := hh
    rw [e.this]
    exact ⟨fun hc => ((h rfl).1 hc).elim, fun hc => ((h rfl).2 hc).elim⟩
  · rw [e.other hh]

/-- A slot of the old table is closed. -/
theorem Sets.started (h : Inv r n s a g) (hl : s.th t = .copy c k pc) (hct : countPc pc' = true) {i : Nat}
    (e : Sets s.toMem s1.toMem k i .closed) (hth : s1.th = s.th) {j q : Nat} (hq : q < s1.cap j) (hv : s1.val j q = .closed) :
    allClosed s1.toMem j ∨ ∃ u, counted j ((s1.goto t (.copy c k pc')).th u) = 1 := by
  by_cases hj : j = k
  · subst hj
    exact Or.inr ⟨t, by simp [St.goto, upd, counted, hct]⟩
  · rw [e.other (by simp [hj])] at hv
    rw [e.cap] at hq
    rcases started_copy (s1 := s1) (pc' := pc') h hl hth (Or.inr (Or.inr hct)) hq hv with h1 | h1
    · refine Or.inl (fun p hp => ?_)
      rw [e.other (by simp [hj])]
      exact h1 p (by rw [← e.cap]; exact hp)
    · exact Or.inr h1

/-- A slot of the new table changes. -/
theorem Sets.started' (h : Inv r n s a g) (hl : s.th t = .copy c k pc) (hct : countPc pc' = true) {j' p : Nat} {v : Val}
    (e : Sets s.toMem s1.toMem j' p v) (hth : s1.th = s.th) (hc : v ≠ .closed) (hc' : s.val j' p ≠ .closed) {j q : Nat} (hq : q < s1.cap j) (hv : s1.val j q = .closed) :
    allClosed s1.toMem j ∨ ∃ u, counted j ((s1.goto t (.copy c k pc')).th u) = 1 := by
  have hcl : ∀ i q, s1.val i q = .closed ↔ s.val i q = .closed := by
    intro i q
    by_cases hh : i = j' ∧ q = p
    · obtain ⟨rfl, rfl⟩ := hh
      rw [e.this]
      exact ⟨fun hc1 => (hc hc1).elim, fun hc1 => (hc' hc1).elim⟩
    · rw [e.other hh]
  rw [e.cap] at hq
  rcases started_copy (s1 := s1) (pc' := pc') h hl hth (Or.inr (Or.inr hct)) hq ((hcl j q).mp hv) with h1 | h1
  · refine Or.inl (fun p hp => (hcl j p).mpr (h1 p (by rw [← e.cap]; exact hp)))
  · exact Or.inr h1

theorem Inv.owner_level (h : Inv r n s a g) {u k' p : Nat} (ho : Owns (s.th u) k' p) : k' + 1 = s.last := by
  have hd := owns_dang ho
  have hlt : k' < s.last := by
    have hi := h.th u
    generalize s.th u = l at ho hi
    cases ho <;> exact hi.1
  exact h.level hlt hd

/-- Tables below one which is being copied have been copied. -/
theorem Inv.below (h : Inv r n s a g) {j q y : Nat} (hk : k < s.last) (hj : j < k) (hq : s.key j q = some y) : s.val j q = .closed :=
  (h.done j (Or.inl (by omega))).1 q (h.sh.lt hq).2

/-- A slot without a value is closed (line 212). -/
theorem sh_fast {m1 : Mem} {i : Nat} (h : Inv r n s a g) (hk : k < s.last) (hi : i < s.cap k) (hv : s.val k i = .tomb)
    (e : Sets s.toMem m1 k i .closed) : Sh r m1 a g := by
  have hlast : k + 1 = s.last := h.level_open hk hi (by rw [hv]; simp)
  have hmv : ∀ y, s.key k i ≠ some y → moved m1 y → moved s.toMem y := by
    intro y hy hm j q hj hq
    have := hm j q (by rw [e.last]; exact hj) (by rw [e.key]; exact hq)
    rwa [e.other] at this
    rintro ⟨rfl, rfl⟩
    exact hy hq
  have hnone : ∀ y, s.key k i = some y → a.map y = none := fun y hy => h.sh.r2 k i y hy hv (by omega)
  refine e.sh h.sh (k := 0) (Or.inr rfl) ⟨by omega, hi⟩ (by intro _; show k ≠ s.last; omega) ?_ ?_ ?_ ?_ ?_ h.sh.gone
  · intro j p y x h1 h2
    rw [e.key] at h1
    by_cases hh : j = k ∧ p = i
    · obtain ⟨rfl, rfl⟩ := hh
      rw [e.this] at h2; cases h2
    · rw [e.other hh] at h2
      exact h.sh.r1 j p y x h1 h2
  · intro j p y h1 h2 h3
    rw [e.key] at h1
    by_cases hy : s.key k i = some y
    · exact hnone y hy
    · have hh : ¬ (j = k ∧ p = i) := by rintro ⟨rfl, rfl⟩; exact hy h1
      rw [e.other hh] at h2
      exact h.sh.r2 j p y h1 h2 (fun hj => hmv y hy (h3 (by rw [e.last]; exact hj)))
  · intro p y h1 h2 h3
    rw [e.key, e.last] at h1
    rw [e.last] at h2
    have hh : ¬ (s.last = k ∧ p = i) := by omega
    rw [e.other hh] at h2
    by_cases hy : s.key k i = some y
    · rw [hnone y hy]
      obtain ⟨k', u, h4, h5, h6⟩ := h.res _ _ h2
      have h7 := h.th u
      have hk' : k' = k := by omega
      subst hk'
      generalize s.th u = l at h6 h7
      cases h6 with
      | swap c' _ i' _ => exact h7.2.2.2.2.2.symm
      | put c' _ i' _ v b =>
        obtain ⟨_, _, _, ⟨z, hz1, hz2⟩, _, _, hz3, _⟩ := h7
        rw [← h4] at hz2
        rw [h1] at hz2
        cases hz2
        have := h.sh.uniq hy hz1
        subst this
        rw [hv] at hz3; cases hz3
    · exact h.sh.r3 p y h1 h2 (hmv y hy h3)
  · intro y x hy
    obtain ⟨j, p, h1, h2⟩ := h.sh.r4 y x hy
    refine ⟨j, p, by rw [e.key]; exact h1, ?_⟩
    rw [e.other]
    · exact h2
    · rintro ⟨rfl, rfl⟩
      rw [hv] at h2; cases h2
  · intro j p q y hj h1 h2 h3
    rw [e.key] at h1 h3
    rw [e.last] at hj
    by_cases hh : j = k ∧ p = i
    · obtain ⟨rfl, rfl⟩ := hh
      exact (h2 e.this).elim
    · rw [e.other hh] at h2
      by_cases hh' : j + 1 = k ∧ q = i
      · exact (h2 (h.below hk (by omega) h1)).elim
      · rw [e.other hh']
        exact h.sh.one j p q y hj h1 h2 h3

theorem moved_front {m m1 : Mem} {j p : Nat} {v : Val} (e : Sets m m1 j p v) (hj : j = m.last) {y : Nat} : moved m1 y ↔ moved m y := by
  constructor
  · intro hm i q hi hq
    have := hm i q (by rw [e.last]; exact hi) (by rw [e.key]; exact hq)
    rwa [e.other (by omega)] at this
  · intro hm i q hi hq
    rw [e.last] at hi
    rw [e.key] at hq
    rw [e.other (by omega)]
    exact hm i q hi hq

/-- A slot of the new table is reserved (line 245). -/
theorem sh_rsv {m1 : Mem} {p x : Nat} (h : Inv r n s a g) (hk : k + 1 = s.last) (hx : s.key (k + 1) p = some x) (hv : s.val (k + 1) p = .tomb)
    (e : Sets s.toMem m1 (k + 1) p .reserved) : Sh r m1 a (upd g p none) := by
  have hmv := fun y => moved_front e hk (y := y)
  refine e.sh h.sh (Or.inl hx) ⟨by omega, (h.sh.lt hx).2⟩ (by intro hc; cases hc) ?_ ?_ ?_ ?_ ?_ h.sh.gone
  · intro j q y z h1 h2
    rw [e.key] at h1
    by_cases hh : j = k + 1 ∧ q = p
    · obtain ⟨rfl, rfl⟩ := hh
      rw [e.this] at h2; cases h2
    · rw [e.other hh] at h2
      exact h.sh.r1 j q y z h1 h2
  · intro j q y h1 h2 h3
    rw [e.key] at h1
    by_cases hh : j = k + 1 ∧ q = p
    · obtain ⟨rfl, rfl⟩ := hh
      rw [e.this] at h2; cases h2
    · rw [e.other hh] at h2
      exact h.sh.r2 j q y h1 h2 (fun hj => (hmv y).mp (h3 (by rw [e.last]; exact hj)))
  · intro q y h1 h2 h3
    rw [e.key, e.last] at h1
    rw [e.last] at h2
    by_cases hq : q = p
    · subst hq
      simp only [upd, if_true]
      rw [← hk] at h1
      exact h.sh.r2 _ q y h1 hv (fun _ => (hmv y).mp h3)
    · rw [e.other (by simp [hq])] at h2
      simp only [upd, if_neg hq]
      exact h.sh.r3 q y h1 h2 ((hmv y).mp h3)
  · intro y z hy
    obtain ⟨j, q, h1, h2⟩ := h.sh.r4 y z hy
    refine ⟨j, q, by rw [e.key]; exact h1, ?_⟩
    rw [e.other]
    · exact h2
    · rintro ⟨rfl, rfl⟩
      rw [hv] at h2; cases h2
  · intro j q q' y hj h1 h2 h3
    rw [e.key] at h1 h3
    rw [e.last] at hj
    rw [e.other (by omega)] at h2
    by_cases hh' : j + 1 = k + 1 ∧ q' = p
    · obtain ⟨h4, rfl⟩ := hh'
      rw [h4, e.this]
      exact Or.inr rfl
    · rw [e.other hh']
      exact h.sh.one j q q' y hj h1 h2 h3

/-- The value is taken from the old table (line 262). -/
theorem sh_swap {m1 : Mem} {i p x : Nat} (h : Inv r n s a g) (hk : k + 1 = s.last) (hx : s.key k i = some x) (hx' : s.key (k + 1) p = some x)
    (hp : s.val (k + 1) p = .reserved) (hv : s.val k i ≠ .closed)
    (e : Sets s.toMem m1 k i .closed) : Sh r m1 a (upd g p (s.val k i).toOpt) := by
  have hmv : ∀ y, y ≠ x → moved m1 y → moved s.toMem y := by
    intro y hy hm j q hj hq
    have := hm j q (by rw [e.last]; exact hj) (by rw [e.key]; exact hq)
    rwa [e.other] at this
    rintro ⟨rfl, rfl⟩
    rw [hx] at hq
    exact hy (Option.some.inj hq).symm
  refine e.sh h.sh (k := 0) (Or.inr rfl) ⟨by omega, (h.sh.lt hx).2⟩ (by intro _; show k ≠ s.last; omega) ?_ ?_ ?_ ?_ ?_ h.sh.gone
  · intro j q y z h1 h2
    rw [e.key] at h1
    by_cases hh : j = k ∧ q = i
    · obtain ⟨rfl, rfl⟩ := hh
      rw [e.this] at h2; cases h2
    · rw [e.other hh] at h2
      exact h.sh.r1 j q y z h1 h2
  · intro j q y h1 h2 h3
    rw [e.key] at h1
    by_cases hh : j = k ∧ q = i
    · obtain ⟨rfl, rfl⟩ := hh
      rw [e.this] at h2; cases h2
    · rw [e.other hh] at h2
      refine h.sh.r2 j q y h1 h2 (fun hj => hmv y ?_ (h3 (by rw [e.last]; exact hj)))
      rintro rfl
      rw [hj, ← hk] at h1 h2
      have := h.sh.uniq h1 hx'
      subst this
      rw [hp] at h2; cases h2
  · intro q y h1 h2 h3
    rw [e.key, e.last] at h1
    rw [e.last] at h2
    rw [e.other (by omega)] at h2
    by_cases hy : y = x
    · subst hy
      rw [← hk] at h1
      have := h.sh.uniq h1 hx'
      subst this
      simp only [upd, if_true]
      generalize hw : s.val k i = w at hv ⊢
      cases w with
      | val z => exact h.sh.r1 k i y z hx hw
      | tomb => exact h.sh.r2 k i y hx hw (by omega)
      | closed => exact (hv rfl).elim
      | reserved => exact (h.not_reserved_lt (by omega) hw).elim
    · have hq : q ≠ p := by
        rintro rfl
        rw [← hk, hx'] at h1
        exact hy (Option.some.inj h1).symm
      simp only [upd, if_neg hq]
      exact h.sh.r3 q y h1 h2 (hmv y hy h3)
  · intro y z hy
    obtain ⟨j, q, h1, h2⟩ := h.sh.r4 y z hy
    by_cases hh : j = k ∧ q = i
    · obtain ⟨rfl, rfl⟩ := hh
      rw [hx] at h1
      cases h1
      refine ⟨j + 1, p, by rw [e.key]; exact hx', ?_⟩
      rw [e.other (by omega), hp]
      rfl
    · refine ⟨j, q, by rw [e.key]; exact h1, ?_⟩
      rw [e.other hh]
      exact h2
  · intro j q q' y hj h1 h2 h3
    rw [e.key] at h1 h3
    rw [e.last] at hj
    by_cases hh : j = k ∧ q = i
    · obtain ⟨rfl, rfl⟩ := hh
      exact (h2 e.this).elim
    · rw [e.other hh] at h2
      by_cases hh' : j + 1 = k ∧ q' = i
      · exact (h2 (h.below (k := k) (by omega) (by omega) h1)).elim
      · rw [e.other hh']
        exact h.sh.one j q q' y hj h1 h2 h3

/-- The property which is being copied has the value which was taken. -/
theorem Inv.taken {i p x : Nat} (h : Inv r n s a g) (hk : k + 1 = s.last) (hx : s.key k i = some x) (hx' : s.key (k + 1) p = some x)
    (hp : s.val (k + 1) p = .reserved) (hc : s.val k i = .closed) : a.map x = g p := by
  refine h.sh.r3 p x (by rw [← hk]; exact hx') (by rw [← hk]; exact hp) ?_
  intro j q hj hq
  have : j = k := by omega
  subst this
  have := h.sh.uniq hq hx
  subst this
  exact hc

/-- The value is put into the new table (line 267). -/
theorem sh_put {m1 : Mem} {i p x : Nat} {v : Val} (h : Inv r n s a g) (hk : k + 1 = s.last) (hx : s.key k i = some x) (hx' : s.key (k + 1) p = some x)
    (hp : s.val (k + 1) p = .reserved) (hg : g p = v.toOpt) (hc : s.val k i = .closed) (hv : v = .tomb ∨ ∃ z, v = .val z)
    (e : Sets s.toMem m1 (k + 1) p v) : Sh r m1 a g := by
  have hmv := fun y => moved_front e hk (y := y)
  have hmap : a.map x = v.toOpt := by rw [← hg]; exact h.taken hk hx hx' hp hc
  refine e.sh h.sh (Or.inl hx') ⟨by omega, (h.sh.lt hx').2⟩ (by rintro rfl; simp at hv) ?_ ?_ ?_ ?_ ?_ h.sh.gone
  · intro j q y z h1 h2
    rw [e.key] at h1
    by_cases hh : j = k + 1 ∧ q = p
    · obtain ⟨rfl, rfl⟩ := hh
      rw [e.this] at h2
      rw [hx'] at h1
      cases h1
      rw [hmap, h2]; rfl
    · rw [e.other hh] at h2
      exact h.sh.r1 j q y z h1 h2
  · intro j q y h1 h2 h3
    rw [e.key] at h1
    by_cases hh : j = k + 1 ∧ q = p
    · obtain ⟨rfl, rfl⟩ := hh
      rw [e.this] at h2
      rw [hx'] at h1
      cases h1
      rw [hmap, h2]; rfl
    · rw [e.other hh] at h2
      exact h.sh.r2 j q y h1 h2 (fun hj => (hmv y).mp (h3 (by rw [e.last]; exact hj)))
  · intro q y h1 h2 h3
    rw [e.key, e.last] at h1
    rw [e.last] at h2
    by_cases hq : q = p
    · subst hq
      rw [← hk, e.this] at h2
      subst h2
      simp at hv
    · rw [e.other (by simp [hq])] at h2
      exact h.sh.r3 q y h1 h2 ((hmv y).mp h3)
  · intro y z hy
    obtain ⟨j, q, h1, h2⟩ := h.sh.r4 y z hy
    refine ⟨j, q, by rw [e.key]; exact h1, ?_⟩
    by_cases hh : j = k + 1 ∧ q = p
    · obtain ⟨rfl, rfl⟩ := hh
      rw [hx'] at h1
      cases h1
      rw [e.this]
      rw [hmap] at hy
      rcases hv with rfl | ⟨z', rfl⟩
      · cases hy
      · rfl
    · rw [e.other hh]
      exact h2
  · intro j q q' y hj h1 h2 h3
    rw [e.key] at h1 h3
    rw [e.last] at hj
    rw [e.other (by omega)] at h2
    by_cases hh' : j + 1 = k + 1 ∧ q' = p
    · obtain ⟨h4, rfl⟩ := hh'
      have : j = k := by omega
      subst this
      rw [hx'] at h3
      cases h3
      have := h.sh.uniq h1 hx
      subst this
      exact (h2 hc).elim
    · rw [e.other hh']
      exact h.sh.one j q q' y hj h1 h2 h3

end

end Verif.PropTab
