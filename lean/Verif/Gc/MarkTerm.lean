import Verif.Gc.Live

/-! # Marking ends -/

namespace Verif.Gc

/-- Depth of the object behind a reference; a tracker counts as its huge object. -/
def depthAt (h : Heap) (r : Ref) : Nat :=
  match bodyAt h r with
  | some (.tracker (.huge k)) => ((h.huge k).map fun x => x.body.depth).getD 0
  | some b => b.depth
  | none => 0

mutual
/-- Number of calls which a call leads to, as far as `d` calls deep. -/
def actCost (h : Heap) (d : Nat) : Act → Nat
  | .black r => refCost h d r
  | _ => 1
termination_by (d, 1)
def refCost (h : Heap) : Nat → Ref → Nat
  | 0, _ => 1
  | d + 1, r => 1 + (((blackKids h r).getD []).map (actCost h d)).sum
termination_by d => (d, 0)
end

theorem refCost_succ (h : Heap) (d : Nat) (r : Ref) :
    refCost h (d + 1) r = 1 + (((blackKids h r).getD []).map (actCost h d)).sum := by
  rw [refCost]

section
variable {cfg : Cfg} {hc : Heap} {R : List Ref}

theorem kids_black {b : Body} {r : Ref} (h : Act.black r ∈ b.kids) : r ∈ b.parts := by
  cases b <;> simp [Body.kids, Body.parts] at h ⊢ <;> exact h

/-- Calls to `mark_object_black` get less and less deep. -/
theorem kid_depth (w : Wf cfg hc R) (sh : Shaped hc R) {r r' : Ref}
    {ks : List Act} (hr : Reach hc R r) (hk : blackKids hc r = some ks)
    (hm : Act.black r' ∈ ks) : Reach hc R r' ∧ (depthAt hc r' < depthAt hc r ∨
      blackKids hc r' = some [] ∨ blackKids hc r' = none) := by
  -- a part of a plain object
  have plain : ∀ r1 b1, Reach hc R r1 → bodyAt hc r1 = some b1 → b1.isTracker = false →
      Act.black r' ∈ b1.kids → Reach hc R r' ∧ (depthAt hc r' < b1.depth ∨
        blackKids hc r' = some [] ∨ blackKids hc r' = none) := by
    intro r1 b1 hr1 hb1 ht1 hm1
    refine ⟨(kids_reach_plain w hr1 hb1 ht1 _ hm1).1, ?_⟩
    cases hb' : bodyAt hc r' with
    | none =>
      cases r' with
      | val v => exact Or.inr (Or.inl rfl)
      | bad => exact Or.inr (Or.inl rfl)
      | heap p s => right; right; simp [blackKids, hb']
      | huge k => right; right; simp [blackKids, hb']
    | some b' =>
      left
      obtain ⟨h1, h2⟩ := sh r1 b1 hr1 hb1 r' (kids_black hm1) b' hb'
      unfold depthAt
      rw [hb']
      cases b' <;> first | exact h2 | cases h1
  cases hb : bodyAt hc r with
  | none =>
    cases r with
    | val v => cases hk; cases hm
    | bad => cases hk; cases hm
    | heap p s => simp [blackKids, hb] at hk
    | huge k => simp [blackKids, hb] at hk
  | some b =>
    have hk : kidsOf hc b = some ks := by
      cases r <;> simp [blackKids, hb] at hk <;> first | exact hk | cases hb
    by_cases ht : b.isTracker = true
    · obtain ⟨o, rfl⟩ := isTracker_iff.1 ht
      cases o with
      | bad => cases hk; cases hm
      | val v => cases hk
      | heap p s => cases hk
      | huge k =>
        simp only [kidsOf, hugeKids] at hk
        split at hk
        · rename_i x hx
          split at hk
          · cases hk
          · rename_i ht'
            cases hk
            have hbx : bodyAt hc (.huge k) = some x.body := by simp [bodyAt, hx]
            have := plain (.huge k) x.body (.step hr hb (by simp [Body.refs])) hbx
              (by simpa using ht') hm
            have hd : depthAt hc r = x.body.depth := by simp [depthAt, hb, hx]
            rw [hd]
            exact this
        · cases hk
    · have ht : b.isTracker = false := by simpa using ht
      rw [kidsOf_plain ht] at hk
      cases hk
      have hd : depthAt hc r = b.depth := by
        unfold depthAt
        rw [hb]
        cases b <;> first | rfl | cases ht
      rw [hd]
      exact plain r b hr hb ht hm

theorem refCost_leaf {r : Ref} (hk : blackKids hc r = some [] ∨ blackKids hc r = none) (d : Nat) :
    refCost hc d r = 1 := by
  cases d with
  | zero => rw [refCost]
  | succ d => rw [refCost_succ]; rcases hk with h | h <;> simp [h]

/-- Going deeper than the object does changes nothing. -/
theorem refCost_stable (w : Wf cfg hc R) (sh : Shaped hc R) :
    ∀ (d : Nat) (r : Ref), Reach hc R r → depthAt hc r < d →
      refCost hc (d + 1) r = refCost hc d r
  | 0, _, _, h => absurd h (Nat.not_lt_zero _)
  | d + 1, r, hr, hd => by
    rw [refCost_succ, refCost_succ]
    congr 2
    refine List.map_congr_left fun a ha => ?_
    cases hk : blackKids hc r with
    | none => rw [hk] at ha; cases ha
    | some ks =>
      rw [hk] at ha
      cases a with
      | gray x => simp [actCost]
      | only x => simp [actCost]
      | black x =>
        simp only [actCost]
        obtain ⟨hx, h1 | h1⟩ := kid_depth w sh hr hk ha
        · exact refCost_stable w sh d x hx (by omega)
        · rw [refCost_leaf h1, refCost_leaf h1]

theorem depth_le (b : Body) : b.depth ≤ 3 := by
  cases b <;> simp [Body.depth]

theorem depthAt_le (h : Heap) (r : Ref) : depthAt h r ≤ 3 := by
  unfold depthAt
  split
  · rename_i k _
    cases h.huge k with
    | none => simp
    | some x => exact depth_le _
  · exact depth_le _
  · exact Nat.zero_le _

/-- The cost of a call. -/
def cost (h : Heap) (a : Act) : Nat := actCost h 5 a

theorem cost_pos (h : Heap) (a : Act) : 0 < cost h a := by
  cases a with
  | black r => simp only [cost, actCost]; rw [refCost_succ]; omega
  | gray r => simp [cost, actCost]
  | only r => simp [cost, actCost]

theorem cost_black (w : Wf cfg hc R) (sh : Shaped hc R) {r : Ref} {ks : List Act}
    (hr : Reach hc R r) (hk : blackKids hc r = some ks) :
    cost hc (.black r) = 1 + (ks.map (cost hc)).sum := by
  have h1 : cost hc (.black r) = refCost hc 6 r := by
    simp only [cost, actCost]
    have := depthAt_le hc r
    exact (refCost_stable w sh 5 r hr (by omega)).symm
  rw [h1, refCost_succ, hk]
  rfl

/-! ## What gets less -/

/-- All slots. -/
def slots (h : Heap) : List (Nat × Nat) :=
  h.used.flatMap fun p => (List.range (h.num p)).map fun s => (p, s)

/-- How many slots are not gray. -/
def notGray (hc : Heap) (m : Marking) : Nat :=
  (slots hc).countP fun x => !(m.h.mark x.1 x.2).gray

def work (hc : Heap) (m : Marking) : Nat := (m.threads.map fun l => (l.map (cost hc)).sum).sum

/-- Thread `i` has something to do. -/
def Busy (m : Marking) (i j : Nat) : Prop :=
  (∃ a rest, m.threads[i]? = some (a :: rest)) ∨ (m.threads[i]? = some [] ∧ j < m.bag.length)

theorem mem_slots {h : Heap} {p s : Nat} : (p, s) ∈ slots h ↔ p ∈ h.used ∧ s < h.num p := by
  simp only [slots, List.mem_flatMap, List.mem_map, List.mem_range, Prod.mk.injEq]
  constructor
  · rintro ⟨q, hq, t, ht, rfl, rfl⟩; exact ⟨hq, ht⟩
  · rintro ⟨h1, h2⟩; exact ⟨p, h1, s, h2, rfl, rfl⟩

theorem countP_lt {α : Type} {P Q : α → Bool} : ∀ {l : List α}, (∀ x ∈ l, Q x = true → P x = true) →
    (∃ a ∈ l, P a = true ∧ Q a = false) → l.countP Q < l.countP P
  | [], _, ⟨_, h, _⟩ => by cases h
  | a :: l, h1, ⟨b, hb, hp, hq⟩ => by
    have hle : l.countP Q ≤ l.countP P :=
      List.countP_mono_left fun x hx => h1 x (List.mem_cons_of_mem _ hx)
    rcases List.mem_cons.1 hb with rfl | hb
    · rw [List.countP_cons_of_pos hp, List.countP_cons_of_neg (by simp [hq])]
      omega
    · have := countP_lt (fun x hx => h1 x (List.mem_cons_of_mem _ hx)) ⟨b, hb, hp, hq⟩
      by_cases hqa : Q a = true
      · rw [List.countP_cons_of_pos hqa, List.countP_cons_of_pos (h1 a List.mem_cons_self hqa)]
        omega
      · rw [List.countP_cons_of_neg hqa]
        rw [List.countP_cons]
        omega

theorem sum_set (g : List Act → Nat) : ∀ {ts : List (List Act)} {i : Nat} {old new : List Act},
    ts[i]? = some old → ((ts.set i new).map g).sum + g old = (ts.map g).sum + g new
  | [], _, _, _, h => by simp at h
  | t :: ts, 0, old, new, h => by
    simp only [List.getElem?_cons_zero, Option.some.injEq] at h
    subst h
    simp only [List.set_cons_zero, List.map_cons, List.sum_cons]
    omega
  | t :: ts, i + 1, old, new, h => by
    simp only [List.getElem?_cons_succ] at h
    have := sum_set g (new := new) h
    simp only [List.set_cons_succ, List.map_cons, List.sum_cons]
    omega

theorem notGray_only (hc : Heap) {m m' : Marking} {r : Ref} (h : doOnly m r = some m') :
    notGray hc m' = notGray hc m ∧ m'.bag = m.bag ∧ m'.threads = m.threads := by
  unfold doOnly at h
  split at h
  · cases h; exact ⟨rfl, rfl, rfl⟩
  · rename_i p s _
    cases h
    refine ⟨?_, rfl, rfl⟩
    unfold notGray
    congr 1
    funext x
    rw [(setBlack_spec m.h.mark p s x.1 x.2).2]
  · cases h

/-- The order in which it gets less. -/
def Less (hc : Heap) (m' m : Marking) : Prop :=
  notGray hc m' < notGray hc m ∨ (notGray hc m' = notGray hc m ∧
    (m'.bag.length < m.bag.length ∨ (m'.bag.length = m.bag.length ∧ work hc m' < work hc m)))

theorem step_less (w : Wf cfg hc R) (sh : Shaped hc R) (hcur : hc.cur = none) {m m' : Marking}
    (hm : MInv hc R m) {i j : Nat} (hb : Busy m i j) (hs : stepMark m i j = some m') :
    Less hc m' m := by
  unfold stepMark at hs
  rcases hb with ⟨a, rest, hi⟩ | ⟨hi, hj⟩
  · simp only [hi] at hs
    have hr := (hm.acts _ (mem_threads_of_get hi) _ List.mem_cons_self).1
    have hset : ∀ new, work hc (setThread m i new) + ((a :: rest).map (cost hc)).sum =
        work hc m + (new.map (cost hc)).sum := fun new =>
      sum_set (fun l => (l.map (cost hc)).sum) hi
    have hpos := cost_pos hc a
    cases a with
    | gray r =>
      have h1 := hset rest
      simp only [List.map_cons, List.sum_cons] at h1
      have hloc : markLoc m.h r = markLoc hc r := by rw [hm.same]; exact markLoc_mark hc _ r
      simp only [doAct, doGray, show (setThread m i rest).h = m.h from rfl, hloc] at hs
      rcases loc_reach w hcur hr with ⟨hl, _⟩ |
        ⟨p, s, n, b, ks, hl, hp, hat, ho, _⟩
      · rw [show (Act.gray r).ref = r from rfl] at hl
        rw [hl] at hs
        cases hs
        exact Or.inr ⟨rfl, Or.inr ⟨rfl, by omega⟩⟩
      · rw [show (Act.gray r).ref = r from rfl] at hl
        simp only [hl] at hs
        by_cases hg : (m.h.mark p s).gray = true
        · rw [if_pos hg] at hs
          cases hs
          exact Or.inr ⟨rfl, Or.inr ⟨rfl, by omega⟩⟩
        · rw [if_neg hg] at hs
          cases hs
          left
          refine countP_lt ?_ ⟨(p, s), mem_slots.2 ⟨hp, ho.2.1⟩, by simpa using hg, ?_⟩
          · intro x _ hx
            have := (setGray_spec m.h.mark p s x.1 x.2).1
            simp only [Bool.not_eq_true', Bool.eq_false_iff, ne_eq, this, not_or] at hx ⊢
            exact hx.1
          · have := ((setGray_spec m.h.mark p s p s).1).2 (Or.inr ⟨rfl, rfl⟩)
            simp [this]
    | only r =>
      have h1 := hset rest
      simp only [List.map_cons, List.sum_cons] at h1
      obtain ⟨h2, h3, h4⟩ := notGray_only hc hs
      refine Or.inr ⟨h2, Or.inr ⟨by rw [h3]; rfl, ?_⟩⟩
      have : work hc m' = work hc (setThread m i rest) := by unfold work; rw [h4]
      omega
    | black r =>
      have hbk : blackKids m.h r = blackKids hc r := by
        rw [hm.same]; exact blackKids_mark hc _ r
      simp only [doAct, hbk] at hs
      cases hk : blackKids hc r with
      | none => rw [hk] at hs; cases hs
      | some ks =>
        simp only [hk] at hs
        have h1 := hset (ks ++ rest)
        have hcb := cost_black w sh hr hk
        simp only [List.map_cons, List.sum_cons, List.map_append, List.sum_append,
          show (Act.black r).ref = r from rfl] at h1 hcb
        obtain ⟨h2, h3, h4⟩ := notGray_only hc hs
        refine Or.inr ⟨h2, Or.inr ⟨by rw [h3]; rfl, ?_⟩⟩
        have : work hc m' = work hc (setThread m i (ks ++ rest)) := by unfold work; rw [h4]
        omega
  · have hjb : m.bag[j]? = some m.bag[j] := List.getElem?_eq_getElem hj
    simp only [hi, hjb] at hs
    cases hs
    refine Or.inr ⟨rfl, Or.inl ?_⟩
    simp only [List.length_eraseIdx, if_pos hj]
    omega

theorem less_wf (hc : Heap) : WellFounded (Less hc) := by
  have key : ∀ (a b c : Nat) (m : Marking), notGray hc m = a → m.bag.length = b → work hc m = c →
      Acc (Less hc) m := by
    intro a
    induction a using Nat.strongRecOn with
    | _ a iha =>
    intro b
    induction b using Nat.strongRecOn with
    | _ b ihb =>
    intro c
    induction c using Nat.strongRecOn with
    | _ c ihc =>
    intro m ha hb hc'
    refine ⟨_, fun m' hl => ?_⟩
    rcases hl with h | ⟨h1, h | ⟨h2, h⟩⟩
    · exact iha _ (by omega) _ _ m' rfl rfl rfl
    · exact ihb _ (by omega) _ m' (by omega) rfl rfl
    · exact ihc _ (by omega) m' (by omega) (by omega) rfl
  exact ⟨fun m => key _ _ _ m rfl rfl rfl⟩

theorem runMark_append : ∀ (a b : List (Nat × Nat)) (m : Marking),
    runMark (a ++ b) m = (runMark a m).bind (runMark b)
  | [], b, m => rfl
  | (i, j) :: a, b, m => by
    simp only [List.cons_append, runMark]
    cases stepMark m i j with
    | none => rfl
    | some m1 => exact runMark_append a b m1

/-- The first `k` steps of an endless schedule. -/
def first (s : Nat → Nat × Nat) (k : Nat) : List (Nat × Nat) := (List.range k).map s

theorem first_succ (s : Nat → Nat × Nat) (k : Nat) : first s (k + 1) = first s k ++ [s k] := by
  simp [first, List.range_succ]

theorem mark_ends (w : Wf cfg hc R) (sh : Shaped hc R) (hcur : hc.cur = none) {m0 : Marking}
    (hm0 : MInv hc R m0) (s : Nat → Nat × Nat)
    (hs : ∀ k m, runMark (first s k) m0 = some m → m.isDone = false → Busy m (s k).1 (s k).2) :
    ∃ k m, runMark (first s k) m0 = some m ∧ m.isDone = true := by
  have key : ∀ m, ∀ k, runMark (first s k) m0 = some m → MInv hc R m →
      ∃ k m, runMark (first s k) m0 = some m ∧ m.isDone = true := by
    intro m
    induction m using (less_wf hc).induction with
    | _ m ih =>
    intro k hk inv
    cases hd : m.isDone with
    | true => exact ⟨k, m, hk, hd⟩
    | false =>
      obtain ⟨m', h1, inv'⟩ := inv.step w hcur (s k).1 (s k).2
      refine ih m' (step_less w sh hcur inv (hs k m hk hd) h1) (k + 1) ?_ inv'
      rw [first_succ, runMark_append, hk]
      simp [runMark, h1]
  exact key m0 0 rfl hm0

theorem doOnly_threads {m m' : Marking} {r : Ref} (h : doOnly m r = some m') :
    m'.threads = m.threads := by
  unfold doOnly at h
  split at h <;> cases h <;> rfl

theorem step_threads {m m' : Marking} {i j : Nat} (h : stepMark m i j = some m') :
    m'.threads.length = m.threads.length := by
  unfold stepMark at h
  split at h
  · cases h; rfl
  · unfold doAct at h
    split at h
    · unfold doGray at h
      split at h
      · cases h; simp [setThread]
      · split at h <;> cases h <;> simp [setThread]
      · cases h
    · rw [doOnly_threads h]; simp [setThread]
    · split at h
      · rw [doOnly_threads h]; simp [setThread]
      · cases h
  · split at h <;> cases h
    · rfl
    · simp [setThread]

/-- As long as marking is not done, some thread has something to do. -/
theorem busy_of_not_done {m : Marking} (ht : m.threads ≠ []) (hd : m.isDone = false) :
    ∃ i j, Busy m i j := by
  by_cases h : ∃ l ∈ m.threads, l ≠ []
  · obtain ⟨l, hl, hn⟩ := h
    obtain ⟨i, hi, rfl⟩ := List.getElem_of_mem hl
    cases hl' : m.threads[i] with
    | nil => exact absurd hl' hn
    | cons a rest => exact ⟨i, 0, Or.inl ⟨a, rest, by rw [List.getElem?_eq_getElem hi, hl']⟩⟩
  · have hall : m.threads.all List.isEmpty = true := by
      rw [List.all_eq_true]
      intro l hl
      by_cases hn : l = []
      · simp [hn]
      · exact absurd ⟨l, hl, hn⟩ h
    have hbag : m.bag ≠ [] := by
      intro hb
      simp [Marking.isDone, hb, hall] at hd
    cases ht' : m.threads with
    | nil => exact absurd ht' ht
    | cons l ls =>
      refine ⟨0, 0, Or.inr ⟨?_, List.length_pos_iff.2 hbag⟩⟩
      have : l = [] := by
        by_cases hn : l = []
        · exact hn
        · exact absurd ⟨l, by rw [ht']; exact List.mem_cons_self, hn⟩ h
      simp [ht', this]

/-- There is a way to finish. -/
theorem can_end (w : Wf cfg hc R) (sh : Shaped hc R) (hcur : hc.cur = none) {m0 : Marking}
    (hm0 : MInv hc R m0) (ht : m0.threads ≠ []) :
    ∃ sch m, runMark sch m0 = some m ∧ m.isDone = true := by
  have key : ∀ m, MInv hc R m → m.threads ≠ [] →
      ∃ sch m', runMark sch m = some m' ∧ m'.isDone = true := by
    intro m
    induction m using (less_wf hc).induction with
    | _ m ih =>
    intro inv ht
    cases hd : m.isDone with
    | true => exact ⟨[], m, rfl, hd⟩
    | false =>
      obtain ⟨i, j, hb⟩ := busy_of_not_done ht hd
      obtain ⟨m', h1, inv'⟩ := inv.step w hcur i j
      have hl := step_threads h1
      obtain ⟨sch, m'', h2, h3⟩ := ih m' (step_less w sh hcur inv hb h1) inv' (by
        intro h
        rw [h] at hl
        exact ht (List.length_eq_zero_iff.1 hl.symm))
      exact ⟨(i, j) :: sch, m'', by simp [runMark, h1, h2], h3⟩
  exact key m0 hm0 ht

end

end Verif.Gc
