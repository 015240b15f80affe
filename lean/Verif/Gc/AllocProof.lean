import Verif.Gc.Live

/-! # What an allocation during a collection does to the pages -/

namespace Verif.Gc

def Heap.all (h : Heap) : List Nat := h.cur.toList ++ h.used ++ h.free

/-- Facts about the page lists which every allocation needs. -/
structure Lists (cfg : Cfg) (h : Heap) : Prop where
  nodup : h.all.Nodup
  lt : ∀ p ∈ h.all, p < h.next
  free : ∀ p ∈ h.free, h.num p = 0
  le : ∀ p, h.inUse p → h.num p ≤ cfg.spp

/-- Slots were given out: `n` of them from `(q, t)`. -/
structure Alloced (cfg : Cfg) (h h' : Heap) (n q t : Nat) : Prop where
  cell : h'.cell = h.cell
  mark : h'.mark = h.mark
  flag : h'.flag = h.flag
  huge : h'.huge = h.huge
  log : h'.log = h.log
  num : ∀ p, p < h.next → p ≠ q → h'.num p = h.num p
  numq : h'.num q = t + n
  fit : t + n ≤ cfg.spp
  next : h.next ≤ h'.next
  use : ∀ p, h'.inUse p ↔ h.inUse p ∨ p = q
  place : (h.inUse q ∧ t = h.num q) ∨ (t = 0 ∧ ¬ h.inUse q ∧ (q ∈ h.free ∨ h.next ≤ q))
  perm : ∃ new : List Nat, new.Nodup ∧ (∀ p ∈ new, h.next ≤ p ∧ p < h'.next) ∧
    h'.all.Perm (new ++ h.all)
  free : ∀ p ∈ h'.free, h'.num p = 0

/-- There was no memory. -/
structure Denied (h h' : Heap) : Prop where
  same : SameHeap h h'
  cur : h'.cur = none
  mark : h'.mark = h.mark
  flag : h'.flag = h.flag
  log : h'.log = h.log

theorem Denied.inUse {h h' : Heap} (d : Denied h h') (p : Nat) : h'.inUse p ↔ h.inUse p :=
  d.same.inUse p

theorem seekPage_spec (cfg : Cfg) (h : Heap) (n : Nat) :
    ∀ (d : Nat) (pre rest : List Nat) {pre' : List Nat} {q : Nat} {post : List Nat},
      seekPage cfg h n d pre rest = some (pre', q, post) →
      pre ++ rest = pre' ++ q :: post ∧ h.num q ≠ cfg.spp ∧ ¬ cfg.spp - h.num q < n
  | 0, _, _, _, _, _, hs => by simp [seekPage] at hs
  | _ + 1, _, [], _, _, _, hs => by simp [seekPage] at hs
  | d + 1, pre, q :: rest, pre', q', post, hs => by
    unfold seekPage at hs
    split at hs
    · cases hs
    · split at hs
      · have := seekPage_spec cfg h n d (pre ++ [q]) rest hs
        rw [List.append_assoc] at this
        exact this
      · rename_i h1 h2
        cases hs
        exact ⟨rfl, h1, h2⟩

theorem all_perm_of {h h' : Heap} (hf : h'.free = h.free)
    (hp : (h'.cur.toList ++ h'.used).Perm (h.cur.toList ++ h.used)) : h'.all.Perm h.all := by
  unfold Heap.all
  rw [hf]
  exact List.Perm.append_right _ hp

/-- The result of finding a page in the list. -/
theorem afterSeek_spec {cfg : Cfg} (h : Heap) (pre : List Nat) (q : Nat) (post : List Nat)
    (hu : h.used = pre ++ q :: post) :
    let h' := afterSeek cfg h pre q post
    h'.cell = h.cell ∧ h'.mark = h.mark ∧ h'.flag = h.flag ∧ h'.huge = h.huge ∧
    h'.log = h.log ∧ h'.num = h.num ∧ h'.next = h.next ∧ h'.free = h.free ∧
    (h'.cur.toList ++ h'.used).Perm (h.cur.toList ++ h.used) := by
  have hmid : (pre ++ q :: post).Perm (q :: (pre ++ post)) := List.perm_middle
  unfold afterSeek
  split
  · split
    · exact ⟨rfl, rfl, rfl, rfl, rfl, rfl, rfl, rfl, .refl _⟩
    · refine ⟨rfl, rfl, rfl, rfl, rfl, rfl, rfl, rfl, List.Perm.append_left _ ?_⟩
      exact (pushPage_perm cfg h _ q).trans (hu ▸ hmid.symm)
  · split
    · rename_i hc
      refine ⟨rfl, rfl, rfl, rfl, rfl, rfl, rfl, rfl, ?_⟩
      simp only [hc, Option.toList, List.nil_append, hu]
      exact hmid.symm
    · rename_i c hc
      split
      · refine ⟨rfl, rfl, rfl, rfl, rfl, rfl, rfl, rfl, ?_⟩
        simp only [hc, Option.toList, hu]
        refine (List.Perm.append_left [q] (pushPage_perm cfg h _ c)).trans ?_
        refine (List.Perm.swap c q _).trans ?_
        exact List.Perm.cons c hmid.symm
      · exact ⟨rfl, rfl, rfl, rfl, rfl, rfl, rfl, rfl, .refl _⟩

theorem setNum_same (f : Nat → Nat) (p n : Nat) : setNum f p n p = n := by simp [setNum]

theorem setNum_ne (f : Nat → Nat) {p q : Nat} (n : Nat) (hq : q ≠ p) : setNum f p n q = f q := by
  simp [setNum, hq]

theorem Lists.free_not_inUse {cfg : Cfg} {h : Heap} (w : Lists cfg h) {p : Nat}
    (hp : p ∈ h.free) : ¬ h.inUse p := by
  intro hu
  rw [inUse_iff] at hu
  exact (List.nodup_append.1 w.nodup).2.2 p hu p hp rfl

/-- Slots of a page in use. -/
theorem Alloced.of_use {cfg : Cfg} {h h' : Heap} {n q : Nat} (w : Lists cfg h)
    (hq : h.inUse q) (hfit : h.num q + n ≤ cfg.spp)
    (hall : h'.cell = h.cell ∧ h'.mark = h.mark ∧ h'.flag = h.flag ∧ h'.huge = h.huge ∧
      h'.log = h.log ∧ h'.num = setNum h.num q (h.num q + n) ∧ h'.next = h.next ∧
      h'.free = h.free ∧ (h'.cur.toList ++ h'.used).Perm (h.cur.toList ++ h.used)) :
    Alloced cfg h h' n q (h.num q) := by
  obtain ⟨h1, h2, h3, h4, h5, h6, h7, h8, h9⟩ := hall
  refine ⟨h1, h2, h3, h4, h5, ?_, ?_, hfit, Nat.le_of_eq h7.symm, ?_, Or.inl ⟨hq, rfl⟩,
    ⟨[], List.nodup_nil, by simp, all_perm_of h8 h9⟩, ?_⟩
  · intro p _ hne
    rw [h6, setNum_ne _ _ hne]
  · rw [h6, setNum_same]
  · intro p
    rw [inUse_iff, inUse_iff, h9.mem_iff]
    constructor
    · exact Or.inl
    · rintro (h | rfl)
      · exact h
      · exact inUse_iff.1 hq
  · intro p hp
    rw [h8] at hp
    have hne : p ≠ q := by
      rintro rfl
      exact w.free_not_inUse hp hq
    rw [h6, setNum_ne _ _ hne]
    exact w.free p hp

theorem range'_nodup (a n : Nat) : (List.range' a n).Nodup := List.nodup_range'

theorem allocNew_spec {cfg : Cfg} {h : Heap} {n : Nat} (w : Lists cfg h) (hn : n ≤ cfg.spp) :
    (∃ h' q t, allocNew cfg h n = some (h', some (q, t)) ∧ Alloced cfg h h' n q t) ∨
    ∃ h', allocNew cfg h n = some (h', none) ∧ Denied h h' := by
  have e := release_same cfg h
  have ecur := release_cur cfg h
  have em : (release cfg h).mark = h.mark ∧ (release cfg h).flag = h.flag ∧
      (release cfg h).log = h.log ∧ (release cfg h).pools = h.pools := by
    unfold release; split <;> exact ⟨rfl, rfl, rfl, rfl⟩
  generalize hg : release cfg h = g at e ecur em
  -- the lists after the page was released
  have hgall : g.all.Perm h.all := all_perm_of e.free e.perm
  unfold allocNew
  simp only [hg]
  cases hfree : g.free with
  | cons p ps =>
    have hrf : refill g = g := by unfold refill; rw [hfree]
    simp only [hrf, hfree]
    have hpf : p ∈ h.free := by rw [← e.free, hfree]; exact List.mem_cons_self
    have hp0 : g.num p = 0 := by rw [e.num]; exact w.free p hpf
    rw [if_pos ⟨hp0, hn⟩]
    left
    refine ⟨_, p, 0, rfl, e.cell, em.1, em.2.1, e.huge, em.2.2.1, ?_, ?_, by omega,
      Nat.le_of_eq e.next.symm, ?_, Or.inr ⟨rfl, w.free_not_inUse hpf, Or.inl hpf⟩,
      ⟨[], List.nodup_nil, by simp, ?_⟩, ?_⟩
    · intro q _ hne
      simp only [setNum_ne _ _ hne, e.num]
    · simp only [setNum_same]; omega
    · intro q
      rw [inUse_iff]
      simp only [Option.toList, List.cons_append, List.nil_append, List.mem_cons]
      have : q ∈ g.used ↔ h.inUse q := by
        rw [← e.inUse q, inUse_iff, ecur]; rfl
      rw [this]
      exact or_comm
    · refine List.Perm.trans ?_ hgall
      unfold Heap.all
      simp only [ecur, hfree, Option.toList, List.nil_append]
      exact (List.perm_middle).symm
    · intro q hq
      have hne : q ≠ p := by
        rintro rfl
        have hnd : (q :: ps).Nodup := by
          rw [← hfree, e.free]
          exact (List.nodup_append.1 w.nodup).2.1
        exact (List.nodup_cons.1 hnd).1 hq
      simp only [setNum_ne _ _ hne, e.num]
      exact w.free q (by rw [← e.free, hfree]; exact List.mem_cons_of_mem _ hq)
  | nil =>
    have hrf : refill g = allocPool g := by unfold refill; rw [hfree]
    simp only [hrf]
    unfold allocPool
    cases hpools : g.pools with
    | nil =>
      simp only [hfree]
      right
      exact ⟨g, rfl, e, ecur, em.1, em.2.1, em.2.2.1⟩
    | cons k ks =>
      simp only
      cases k with
      | zero =>
        simp only [List.range'_zero]
        right
        refine ⟨_, rfl, ⟨e.cell, ?_, e.huge, e.next, ?_, e.perm⟩, ecur, em.1, em.2.1,
          em.2.2.1⟩
        · funext p
          simp only [Nat.add_zero]
          rw [if_neg (by omega), e.num]
        · simp only; rw [← e.free, hfree]
      | succ k =>
        simp only [List.range'_succ]
        rw [if_pos ⟨if_pos ⟨Nat.le_refl _, by omega⟩, hn⟩]
        left
        have hnot : ¬ h.inUse g.next := by
          intro hu
          have := w.lt g.next (List.mem_append_left _ (inUse_iff.1 hu))
          rw [e.next] at this
          omega
        refine ⟨_, g.next, 0, rfl, e.cell, em.1, em.2.1, e.huge, em.2.2.1, ?_, ?_, by omega,
          ?_, ?_, Or.inr ⟨rfl, hnot, Or.inr (Nat.le_of_eq e.next.symm)⟩,
          ⟨List.range' g.next (k + 1), range'_nodup _ _, ?_, ?_⟩, ?_⟩
        · intro q hq hne
          simp only [setNum_ne _ _ hne]
          rw [← e.next] at hq
          rw [if_neg (by omega), e.num]
        · simp only [setNum_same]; omega
        · rw [← e.next]; simp only; omega
        · intro q
          rw [inUse_iff]
          simp only [Option.toList, List.cons_append, List.nil_append, List.mem_cons]
          have : q ∈ g.used ↔ h.inUse q := by
            rw [← e.inUse q, inUse_iff, ecur]; rfl
          rw [this]
          exact or_comm
        · intro q hq
          rw [List.mem_range'_1] at hq
          rw [← e.next]
          exact hq
        · have : g.all = g.used := by
            unfold Heap.all
            rw [ecur, hfree]
            simp
          rw [List.range'_succ]
          refine List.Perm.trans ?_ (List.Perm.append_left _ hgall)
          rw [this]
          unfold Heap.all
          simp only [Option.toList, List.cons_append, List.nil_append]
          exact List.Perm.cons _ List.perm_append_comm
        · intro q hq
          simp only at hq
          rw [List.mem_range'_1] at hq
          simp only
          rw [setNum_ne _ _ (by omega), if_pos (by omega)]

theorem allocSlow_spec {cfg : Cfg} {h : Heap} {n : Nat} (w : Lists cfg h)
    (hn : n ≤ cfg.spp) :
    (∃ h' q t, allocSlow cfg h n = some (h', some (q, t)) ∧ Alloced cfg h h' n q t) ∨
    ∃ h', allocSlow cfg h n = some (h', none) ∧ Denied h h' := by
  unfold allocSlow
  cases hs : seekPage cfg h n cfg.seek [] h.used with
  | none => exact allocNew_spec w hn
  | some r =>
    obtain ⟨pre, q, post⟩ := r
    obtain ⟨h1, h2, h3⟩ := seekPage_spec cfg h n _ _ _ hs
    simp only [List.nil_append] at h1
    left
    have hq : h.inUse q := Or.inl (by rw [h1]; simp)
    have hle := w.le q hq
    refine ⟨_, q, h.num q, rfl, Alloced.of_use w hq (by omega) ?_⟩
    exact afterSeek_spec { h with num := setNum h.num q (h.num q + n) } pre q post h1

/-- Memory is given out from a page in use or from a new one, or there is none. -/
theorem alloc_spec {cfg : Cfg} {h : Heap} {n : Nat} (w : Lists cfg h) (hn : n ≤ cfg.spp) :
    (∃ h' q t, alloc cfg h n = some (h', some (q, t)) ∧ Alloced cfg h h' n q t) ∨
    ∃ h', alloc cfg h n = some (h', none) ∧ Denied h h' := by
  unfold alloc
  split
  · rename_i p hp
    split
    · rename_i hfit
      left
      exact ⟨_, p, h.num p, rfl, Alloced.of_use w (Or.inr hp) hfit
        ⟨rfl, rfl, rfl, rfl, rfl, rfl, rfl, rfl, .refl _⟩⟩
    · exact allocSlow_spec w hn
  · exact allocSlow_spec w hn

/-- The page lists stay in order. -/
theorem Alloced.lists {cfg : Cfg} {h h' : Heap} {n q t : Nat} (w : Lists cfg h)
    (a : Alloced cfg h h' n q t) : Lists cfg h' := by
  obtain ⟨new, hnd, hnew, hperm⟩ := a.perm
  refine ⟨?_, ?_, a.free, ?_⟩
  · rw [hperm.nodup_iff]
    refine List.nodup_append.2 ⟨hnd, w.nodup, ?_⟩
    rintro p hp p' hp' rfl
    have := hnew p hp
    have := w.lt p hp'
    omega
  · intro p hp
    rcases List.mem_append.1 (hperm.mem_iff.1 hp) with hp | hp
    · exact (hnew p hp).2
    · have := w.lt p hp
      have := a.next
      omega
  · intro p hp
    by_cases hpq : p = q
    · subst hpq; rw [a.numq]; exact a.fit
    · rcases (a.use p).1 hp with hp | hp
      · rw [a.num p (w.lt p (List.mem_append_left _ (inUse_iff.1 hp))) hpq]
        exact w.le p hp
      · exact absurd hp hpq

theorem Denied.lists {cfg : Cfg} {h h' : Heap} (w : Lists cfg h) (d : Denied h h') :
    Lists cfg h' := by
  have hall : h'.all.Perm h.all := all_perm_of d.same.free d.same.perm
  refine ⟨hall.nodup_iff.2 w.nodup, ?_, ?_, ?_⟩
  · intro p hp; rw [d.same.next]; exact w.lt p (hall.mem_iff.1 hp)
  · rw [d.same.free, d.same.num]; exact w.free
  · intro p hp; rw [d.same.num]; exact w.le p ((d.inUse p).1 hp)

end Verif.Gc
