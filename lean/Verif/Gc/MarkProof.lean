import Verif.Gc.Mark
import Verif.Gc.Spec

/-! # Marking marks exactly what can be reached -/

namespace Verif.Gc

theorem Tile.trans {c : Nat → Option Obj} {s e f : Nat} (h : Tile c s e) (g : Tile c e f) :
    Tile c s f := by
  induction h with
  | nil => exact g
  | cons h1 h2 _ ih => exact .cons h1 h2 (ih g)

theorem Tile.le {c : Nat → Option Obj} {s e : Nat} (h : Tile c s e) : s ≤ e := by
  induction h with
  | nil => exact Nat.le_refl _
  | cons _ _ _ ih => omega

theorem Tile.rest {c : Nat → Option Obj} {s x e : Nat} (h : Tile c s x) (g : Tile c s e)
    (hx : x ≤ e) : Tile c x e := by
  induction h with
  | nil => exact g
  | @cons s n x b h1 h2 h3 ih =>
    cases g with
    | nil => have := h3.le; omega
    | @cons _ n' _ b' g1 g2 g3 =>
      rw [h1] at g1
      have hn : n = n' := by simpa using (congrArg (Option.map Obj.hdr) g1)
      subst hn
      exact ih g3 hx

theorem Tile.head {c : Nat → Option Obj} {s e : Nat} (h : Tile c s e) (hs : s < e) :
    ∃ n b, c s = some ⟨.own n, b⟩ ∧ 0 < n ∧ s + n ≤ e ∧ Tile c (s + n) e := by
  cases h with
  | nil => omega
  | cons h1 h2 h3 => exact ⟨_, _, h1, h2, h3.le, h3⟩

/-- Tiles depend only on the slots they cover. -/
theorem Tile.congr {c d : Nat → Option Obj} {s e : Nat} (h : Tile c s e)
    (hd : ∀ x, s ≤ x → x < e → d x = c x) : Tile d s e := by
  induction h with
  | nil => exact .nil _
  | @cons s n e b h1 h2 h3 ih =>
    have := h3.le
    refine .cons (b := b) (n := n) ?_ h2 (ih fun x hx hx' => hd x (by omega) hx')
    rw [hd s (Nat.le_refl _) (by omega), h1]

theorem PagesOk.obj {cfg : Cfg} {h : Heap} (hp : PagesOk cfg h) {p s : Nat}
    (ho : IsObj h p s) : ∃ n b, h.cell p s = some ⟨.own n, b⟩ ∧ 0 < n ∧ s + n ≤ h.num p ∧
      Tile (h.cell p) (s + n) (h.num p) := by
  have ht := (hp.tiled p ho.1).2
  exact (ho.2.2.rest ht (Nat.le_of_lt ho.2.1)).head ho.2.1

def Act.ref : Act → Ref
  | .gray r | .black r | .only r => r

theorem kids_refs (b : Body) (hb : b.isTracker = false) (r : Ref) :
    r ∈ b.kids.map Act.ref ↔ r ∈ b.refs := by
  cases b with
  | tracker => simp [Body.isTracker] at hb
  | objStore items nt d =>
    simp only [Body.kids, Body.refs, List.map_append, List.map_flatMap, List.map_cons,
      List.map_nil, Act.ref]
  | arrStore buf nx d =>
    simp only [Body.kids, Body.refs, List.map_append, List.map_map, List.map_cons,
      List.map_nil, Act.ref]
    have : (Act.ref ∘ Act.gray) = id := by funext x; rfl
    rw [this, List.map_id]
  | stack buf d =>
    simp only [Body.kids, Body.refs, List.map_map]
    have : (Act.ref ∘ Act.gray) = id := by funext x; rfl
    rw [this, List.map_id]
  | cls bc m nm cl df am pt pr o =>
    simp only [Body.kids, Body.refs, Act.ref, List.map_cons, List.map_nil, List.mem_cons,
      List.not_mem_nil, or_false]
    grind
  | _ => simp [Body.kids, Body.refs, Act.ref]

section
variable {cfg : Cfg} {hc : Heap} {R : List Ref}

/-- An object that can be reached has its mark in this slot. -/
def At (hc : Heap) (R : List Ref) (p s : Nat) : Prop :=
  Reach hc R (.heap p s) ∨ ∃ k x, Reach hc R (.huge k) ∧ hc.huge k = some x ∧
    x.back = .heap p s

theorem kids_only {b : Body} {r : Ref} (h : Act.only r ∈ b.kids) :
    ∃ n, b = .buffer r n := by
  cases b <;> simp [Body.kids] at h
  exact ⟨_, by rw [h]⟩

theorem kids_reach_plain (w : Wf cfg hc R) {r : Ref} {b : Body} (hr : Reach hc R r)
    (hb : bodyAt hc r = some b) (ht : b.isTracker = false) :
    ∀ a ∈ b.kids, Reach hc R a.ref ∧
      ∀ x, a = .only x → ∀ c, bodyAt hc x = some c → c.isStorage := by
  intro a ha
  refine ⟨.step hr hb ((kids_refs b ht _).1 (List.mem_map.2 ⟨a, ha, rfl⟩)), ?_⟩
  rintro x rfl
  obtain ⟨n, rfl⟩ := kids_only ha
  exact w.buffers r x n hr hb

theorem kidsOf_plain {h : Heap} {b : Body} (ht : b.isTracker = false) :
    kidsOf h b = some b.kids := by
  cases b <;> first | rfl | simp [Body.isTracker] at ht

theorem isTracker_iff {b : Body} : b.isTracker = true ↔ ∃ r, b = .tracker r := by
  cases b <;> simp [Body.isTracker]

theorem kids_reach (w : Wf cfg hc R) {r : Ref} {b : Body} {ks : List Act}
    (hr : Reach hc R r) (hb : bodyAt hc r = some b) (hk : kidsOf hc b = some ks) :
    ∀ a ∈ ks, Reach hc R a.ref ∧
      ∀ x, a = .only x → ∀ c, bodyAt hc x = some c → c.isStorage := by
  by_cases ht : b.isTracker = true
  · obtain ⟨o, rfl⟩ := isTracker_iff.1 ht
    cases o with
    | bad => cases hk; simp
    | val v => cases hk
    | heap p s => cases hk
    | huge k =>
      simp only [kidsOf, hugeKids] at hk
      split at hk
      · rename_i x hx
        split at hk
        · cases hk
        · rename_i ht'
          cases hk
          refine kids_reach_plain w (r := .huge k) (.step hr hb (by simp [Body.refs])) ?_
            (by simpa using ht')
          simp [bodyAt, hx]
      · cases hk
  · have ht : b.isTracker = false := by simpa using ht
    rw [kidsOf_plain ht] at hk
    cases hk
    exact kids_reach_plain w hr hb ht

theorem kidsOf_some (w : Wf cfg hc R) {p s n : Nat} {b : Body} (ho : IsObj hc p s)
    (hb : hc.cell p s = some ⟨.own n, b⟩) : ∃ ks, kidsOf hc b = some ks := by
  by_cases ht : b.isTracker = true
  · obtain ⟨o, rfl⟩ := isTracker_iff.1 ht
    rcases w.trackers p s n o ho hb with rfl | ⟨k, x, rfl, hx, _, hxt⟩
    · exact ⟨_, rfl⟩
    · exact ⟨x.body.kids, by simp [kidsOf, hugeKids, hx, hxt]⟩
  · exact ⟨_, kidsOf_plain (by simpa using ht)⟩

/-- Every reachable reference is nothing to mark, or has a mark in a page and children. -/
theorem loc_reach (w : Wf cfg hc R) (hcur : hc.cur = none) {r : Ref} (hr : Reach hc R r) :
    (markLoc hc r = .nowhere ∧ blackKids hc r = some []) ∨
    ∃ p s n b ks, markLoc hc r = .slot p s ∧ p ∈ hc.used ∧ At hc R p s ∧ IsObj hc p s ∧
      hc.cell p s = some ⟨.own n, b⟩ ∧ kidsOf hc b = some ks ∧ blackKids hc r = some ks ∧
      (r = .heap p s ∨ ∃ k x, r = .huge k ∧ hc.huge k = some x ∧ x.back = .heap p s) ∧
      ∃ b0, bodyAt hc r = some b0 ∧ kidsOf hc b0 = some ks := by
  have hv := w.valid r hr
  cases r with
  | val v => exact Or.inl ⟨rfl, rfl⟩
  | bad => exact Or.inl ⟨rfl, rfl⟩
  | heap p s =>
    right
    obtain ⟨n, b, hb, _, _, _⟩ := w.pages.obj hv
    obtain ⟨ks, hk⟩ := kidsOf_some w hv hb
    have hbody : bodyAt hc (.heap p s) = some b := by simp [bodyAt, hb]
    have hu : p ∈ hc.used := by
      rcases hv.1 with h | h
      · exact h
      · rw [hcur] at h; cases h
    exact ⟨p, s, n, b, ks, rfl, hu, Or.inl hr, hv, hb, hk, by simp [blackKids, hbody, hk],
      Or.inl rfl, b, hbody, hk⟩
  | huge k =>
    right
    obtain ⟨x, p, s, n, hx, hback, hxt, ho, hcell⟩ := hv
    have hu : p ∈ hc.used := by
      rcases ho.1 with h | h
      · exact h
      · rw [hcur] at h; cases h
    have hbody : bodyAt hc (.huge k) = some x.body := by simp [bodyAt, hx]
    refine ⟨p, s, n, _, x.body.kids, ?_, hu, Or.inr ⟨k, x, hr, hx, hback⟩, ho, hcell, ?_, ?_,
      Or.inr ⟨k, x, rfl, hx, hback⟩, x.body, hbody, kidsOf_plain hxt⟩
    · obtain ⟨xb, xbody⟩ := x
      simp only at hback
      subst hback
      simp [markLoc, hx, trackerAt, hcell]
    · simp [kidsOf, hugeKids, hx, hxt]
    · simp [blackKids, hbody, kidsOf_plain hxt]

/-- Some thread still has to mark `r`. -/
def Pending (m : Marking) (r : Ref) : Prop := ∃ l ∈ m.threads, ∃ a ∈ l, a.ref = r

/-- `r` is marked, or there is nothing to mark. -/
def Seen (hc : Heap) (m : Marking) (r : Ref) : Prop :=
  ∀ p s, markLoc hc r = .slot p s → (m.h.mark p s).any = true

structure MInv (hc : Heap) (R : List Ref) (m : Marking) : Prop where
  same : m.h = { hc with mark := m.h.mark }
  bag : ∀ r ∈ m.bag, Reach hc R r
  acts : ∀ l ∈ m.threads, ∀ a ∈ l, Reach hc R a.ref ∧
    ∀ x, a = .only x → ∀ c, bodyAt hc x = some c → c.isStorage
  marked : ∀ p s, p ∈ hc.used → (m.h.mark p s).any = true → At hc R p s
  gray : ∀ p s, p ∈ hc.used → (m.h.mark p s).gray = true → (m.h.mark p s).black = true ∨
    (∃ r ∈ m.bag, markLoc hc r = .slot p s) ∨
    ∃ l ∈ m.threads, ∃ r, Act.black r ∈ l ∧ markLoc hc r = .slot p s
  black : ∀ p s, p ∈ hc.used → (m.h.mark p s).black = true → ∀ n b ks,
    hc.cell p s = some ⟨.own n, b⟩ → kidsOf hc b = some ks → ∀ a ∈ ks,
    Pending m a.ref ∨ Seen hc m a.ref
  roots : ∀ r ∈ R, Pending m r ∨ Seen hc m r

theorem setGray_spec (M : Nat → Nat → Mark) (p s q t : Nat) :
    ((setGray M p s q t).gray = true ↔ (M q t).gray = true ∨ (q = p ∧ t = s)) ∧
    ((setGray M p s q t).black = (M q t).black) := by
  unfold setGray
  split
  · rename_i h; obtain ⟨rfl, rfl⟩ := h; simp
  · rename_i h; simp [h]

theorem setBlack_spec (M : Nat → Nat → Mark) (p s q t : Nat) :
    ((setBlack M p s q t).black = true ↔ (M q t).black = true ∨ (q = p ∧ t = s)) ∧
    ((setBlack M p s q t).gray = (M q t).gray) := by
  unfold setBlack
  split
  · rename_i h; obtain ⟨rfl, rfl⟩ := h; simp
  · rename_i h; simp [h]

theorem any_setGray (M : Nat → Nat → Mark) (p s q t : Nat) :
    (setGray M p s q t).any = true ↔ (M q t).any = true ∨ (q = p ∧ t = s) := by
  have := setGray_spec M p s q t
  simp only [Mark.any, Bool.or_eq_true, this.1, this.2]
  grind

theorem any_setBlack (M : Nat → Nat → Mark) (p s q t : Nat) :
    (setBlack M p s q t).any = true ↔ (M q t).any = true ∨ (q = p ∧ t = s) := by
  have := setBlack_spec M p s q t
  simp only [Mark.any, Bool.or_eq_true, this.1, this.2]
  grind

theorem markLoc_mark (h : Heap) (M : Nat → Nat → Mark) (r : Ref) :
    markLoc { h with mark := M } r = markLoc h r := by
  cases r <;> rfl

theorem blackKids_mark (h : Heap) (M : Nat → Nat → Mark) (r : Ref) :
    blackKids { h with mark := M } r = blackKids h r := by
  cases r <;> rfl

/-- Members of the list of lists after one list was replaced. -/
theorem mem_set_threads {ts : List (List Act)} {i : Nat} {old new : List Act}
    (_h : ts[i]? = some old) {l : List Act} :
    l ∈ ts.set i new → l = new ∨ l ∈ ts := by
  intro hl
  rcases List.mem_or_eq_of_mem_set hl with h | h
  · exact Or.inr h
  · exact Or.inl h

theorem new_mem_set {ts : List (List Act)} {i : Nat} {old new : List Act}
    (h : ts[i]? = some old) : new ∈ ts.set i new := by
  have hi : i < ts.length := by
    rcases Nat.lt_or_ge i ts.length with h' | h'
    · exact h'
    · rw [List.getElem?_eq_none h'] at h; cases h
  exact List.mem_set hi new

theorem old_mem_set {ts : List (List Act)} {i : Nat} {old new : List Act}
    (h : ts[i]? = some old) {l : List Act} (hl : l ∈ ts) : l = old ∨ l ∈ ts.set i new := by
  obtain ⟨j, hj, rfl⟩ := List.getElem_of_mem hl
  by_cases hij : i = j
  · subst hij
    left
    rw [List.getElem?_eq_getElem hj] at h
    exact Option.some.inj h
  · right
    have hj' : j < (ts.set i new).length := by rw [List.length_set]; exact hj
    have he : (ts.set i new)[j] = ts[j] := by rw [List.getElem_set_ne hij]
    rw [← he]
    exact List.getElem_mem hj'

theorem mem_threads_of_get {ts : List (List Act)} {i : Nat} {old : List Act}
    (h : ts[i]? = some old) : old ∈ ts := List.mem_of_getElem? h

/-- A thread takes a scheduled object. -/
theorem MInv.take {m : Marking} (hm : MInv hc R m) {i j : Nat} {r : Ref}
    (hi : m.threads[i]? = some []) (hj : m.bag[j]? = some r) :
    MInv hc R { setThread m i [.black r] with bag := m.bag.eraseIdx j } := by
  have hrb : r ∈ m.bag := List.mem_of_getElem? hj
  have hcov : ∀ x, Pending m x ∨ Seen hc m x →
      Pending { setThread m i [.black r] with bag := m.bag.eraseIdx j } x ∨
      Seen hc { setThread m i [.black r] with bag := m.bag.eraseIdx j } x := by
    rintro x (⟨l, hl, a', ha', hr'⟩ | h)
    · rcases old_mem_set (new := [.black r]) hi hl with rfl | hl
      · cases ha'
      · exact Or.inl ⟨l, hl, a', ha', hr'⟩
    · exact Or.inr h
  constructor
  · exact hm.same
  · intro x hx
    exact hm.bag x (List.mem_of_mem_eraseIdx hx)
  · intro l hl a ha
    rcases mem_set_threads hi hl with rfl | hl
    · rw [List.mem_singleton] at ha
      subst ha
      exact ⟨hm.bag r hrb, by simp⟩
    · exact hm.acts l hl a ha
  · exact hm.marked
  · intro p s hp hg
    rcases hm.gray p s hp hg with h | ⟨x, hx, hxl⟩ | ⟨l, hl, x, hx, hxl⟩
    · exact Or.inl h
    · obtain ⟨jj, hjj, rfl⟩ := List.getElem_of_mem hx
      by_cases he : jj = j
      · subst he
        have hxr : m.bag[jj] = r := by
          rw [List.getElem?_eq_getElem hjj] at hj
          exact Option.some.inj hj
        rw [hxr] at hxl
        exact Or.inr (Or.inr ⟨_, new_mem_set hi, r, List.mem_singleton.2 rfl, hxl⟩)
      · right; left
        refine ⟨_, ?_, hxl⟩
        rw [List.mem_eraseIdx_iff_getElem]
        exact ⟨jj, hjj, he, rfl⟩
    · rcases old_mem_set (new := [.black r]) hi hl with rfl | hl
      · cases hx
      · exact Or.inr (Or.inr ⟨l, hl, x, hx, hxl⟩)
  · intro p s hp hb n b ks hcell hk a ha
    exact hcov _ (hm.black p s hp hb n b ks hcell hk a ha)
  · exact fun r hr => hcov r (hm.roots r hr)

/-- What is pending after a thread made its first call `a`. -/
theorem pending_after {m : Marking} {i : Nat} {a : Act} {rest new : List Act}
    (hi : m.threads[i]? = some (a :: rest)) (hsub : ∀ x ∈ rest, x ∈ new) {r : Ref} :
    Pending m r → r = a.ref ∨ Pending (setThread m i new) r := by
  rintro ⟨l, hl, x, hx, rfl⟩
  rcases old_mem_set (new := new) hi hl with rfl | hl
  · rcases List.mem_cons.1 hx with rfl | hx
    · exact Or.inl rfl
    · exact Or.inr ⟨_, new_mem_set hi, x, hsub x hx, rfl⟩
  · exact Or.inr ⟨l, hl, x, hx, rfl⟩

theorem MInv.gray_step (w : Wf cfg hc R) (hcur : hc.cur = none) {m : Marking}
    (hm : MInv hc R m) {i : Nat} {r : Ref} {rest : List Act}
    (hi : m.threads[i]? = some (.gray r :: rest)) :
    ∃ m', doGray (setThread m i rest) r = some m' ∧ MInv hc R m' := by
  have hr : Reach hc R r := (hm.acts _ (mem_threads_of_get hi) _ List.mem_cons_self).1
  have hloc : markLoc m.h r = markLoc hc r := by rw [hm.same]; exact markLoc_mark hc _ r
  have hacts : ∀ l ∈ (setThread m i rest).threads, ∀ a ∈ l, Reach hc R a.ref ∧
      ∀ x, a = .only x → ∀ c, bodyAt hc x = some c → c.isStorage := by
    intro l hl a ha
    rcases mem_set_threads hi hl with rfl | hl
    · exact hm.acts _ (mem_threads_of_get hi) a (List.mem_cons_of_mem _ ha)
    · exact hm.acts l hl a ha
  have hblk : ∀ l ∈ m.threads, ∀ x, Act.black x ∈ l →
      ∃ l ∈ (setThread m i rest).threads, Act.black x ∈ l := by
    intro l hl x hx
    rcases old_mem_set (new := rest) hi hl with rfl | hl
    · rcases List.mem_cons.1 hx with h | hx
      · cases h
      · exact ⟨_, new_mem_set hi, hx⟩
    · exact ⟨l, hl, hx⟩
  unfold doGray
  rw [show (setThread m i rest).h = m.h from rfl, hloc]
  rcases loc_reach w hcur hr with ⟨hl, _⟩ | ⟨p, s, n, b, ks, hl, hp, hat, ho, hcell, hk, _, _, _⟩
  · rw [hl]
    have hcov : ∀ x, Pending m x ∨ Seen hc m x →
        Pending (setThread m i rest) x ∨ Seen hc (setThread m i rest) x := by
      rintro x (h | h)
      · rcases pending_after hi (new := rest) (fun x hx => hx) h with he | h
        · right
          intro p' s' hps
          rw [he] at hps
          rw [show (Act.gray r).ref = r from rfl, hl] at hps
          cases hps
        · exact Or.inl h
      · exact Or.inr h
    refine ⟨_, rfl, hm.same, hm.bag, hacts, hm.marked, ?_, ?_,
      fun r hr => hcov r (hm.roots r hr)⟩
    · intro p s hp hg
      rcases hm.gray p s hp hg with h | h | ⟨l, hl, x, hx, hxl⟩
      · exact Or.inl h
      · exact Or.inr (Or.inl h)
      · obtain ⟨l, hl, hx⟩ := hblk l hl x hx
        exact Or.inr (Or.inr ⟨l, hl, x, hx, hxl⟩)
    · intro p s hp hb n b ks hcell hk a ha
      exact hcov _ (hm.black p s hp hb n b ks hcell hk a ha)
  · rw [hl]
    by_cases hg : (m.h.mark p s).gray = true
    · simp only [if_pos hg]
      have hcov : ∀ x, Pending m x ∨ Seen hc m x →
          Pending (setThread m i rest) x ∨ Seen hc (setThread m i rest) x := by
        rintro x (h | h)
        · rcases pending_after hi (new := rest) (fun x hx => hx) h with he | h
          · right
            intro p'' s'' hps
            rw [he] at hps
            rw [show (Act.gray r).ref = r from rfl, hl] at hps
            cases hps
            change (m.h.mark p s).any = true
            simp [Mark.any, hg]
          · exact Or.inl h
        · exact Or.inr h
      refine ⟨_, rfl, hm.same, hm.bag, hacts, hm.marked, ?_, ?_,
        fun r hr => hcov r (hm.roots r hr)⟩
      · intro p s hp hg
        rcases hm.gray p s hp hg with h | h | ⟨l, hl, x, hx, hxl⟩
        · exact Or.inl h
        · exact Or.inr (Or.inl h)
        · obtain ⟨l, hl, hx⟩ := hblk l hl x hx
          exact Or.inr (Or.inr ⟨l, hl, x, hx, hxl⟩)
      · intro p' s' hp hb n b ks hcell hk a ha
        exact hcov _ (hm.black p' s' hp hb n b ks hcell hk a ha)
    · simp only [if_neg hg]
      have hcov : ∀ x, Pending m x ∨ Seen hc m x →
          Pending { setThread m i rest with
            h := { m.h with mark := setGray m.h.mark p s }, bag := r :: m.bag } x ∨
          Seen hc { setThread m i rest with
            h := { m.h with mark := setGray m.h.mark p s }, bag := r :: m.bag } x := by
        rintro x (h | h)
        · rcases pending_after hi (new := rest) (fun x hx => hx) h with he | h
          · right
            intro p'' s'' hps
            rw [he] at hps
            rw [show (Act.gray r).ref = r from rfl, hl] at hps
            cases hps
            exact (any_setGray _ p s p s).2 (Or.inr ⟨rfl, rfl⟩)
          · exact Or.inl h
        · right
          intro p'' s'' hps
          exact (any_setGray _ p s p'' s'').2 (Or.inl (h p'' s'' hps))
      refine ⟨_, rfl, ?_, ?_, hacts, ?_, ?_, ?_, fun r hr => hcov r (hm.roots r hr)⟩
      · show ({ m.h with mark := _ } : Heap) = _
        rw [hm.same]
      · intro x hx
        rcases List.mem_cons.1 hx with rfl | hx
        · exact hr
        · exact hm.bag x hx
      · intro q t hq ha
        rcases (any_setGray _ p s q t).1 ha with h | ⟨rfl, rfl⟩
        · exact hm.marked q t hq h
        · exact hat
      · intro q t hq hg'
        change (setGray m.h.mark p s q t).gray = true at hg'
        change (setGray m.h.mark p s q t).black = true ∨ _
        rw [(setGray_spec m.h.mark p s q t).2]
        rcases (setGray_spec m.h.mark p s q t).1.1 hg' with h | ⟨rfl, rfl⟩
        · rcases hm.gray q t hq h with h | ⟨x, hx, hxl⟩ | ⟨l, hl, x, hx, hxl⟩
          · exact Or.inl h
          · exact Or.inr (Or.inl ⟨x, List.mem_cons_of_mem _ hx, hxl⟩)
          · obtain ⟨l, hl, hx⟩ := hblk l hl x hx
            exact Or.inr (Or.inr ⟨l, hl, x, hx, hxl⟩)
        · exact Or.inr (Or.inl ⟨r, List.mem_cons_self, hl⟩)
      · intro q t hq hb n' b' ks' hcell' hk' a ha
        change (setGray m.h.mark p s q t).black = true at hb
        rw [(setGray_spec m.h.mark p s q t).2] at hb
        exact hcov _ (hm.black q t hq hb n' b' ks' hcell' hk' a ha)

/-- The step which makes a mark black and puts `new` before what the thread has to do. -/
theorem MInv.black_step (w : Wf cfg hc R) (hcur : hc.cur = none) {m : Marking}
    (hm : MInv hc R m) {i : Nat} {a0 : Act} {rest new : List Act}
    (hi : m.threads[i]? = some (a0 :: rest))
    (hnew : ∀ a ∈ new, Reach hc R a.ref ∧
      ∀ x, a = .only x → ∀ c, bodyAt hc x = some c → c.isStorage)
    (hks : ∀ p s n b ks, markLoc hc a0.ref = .slot p s → hc.cell p s = some ⟨.own n, b⟩ →
      kidsOf hc b = some ks → ∀ a ∈ ks, a ∈ new) :
    ∃ m', doOnly (setThread m i (new ++ rest)) a0.ref = some m' ∧ MInv hc R m' := by
  have hr := (hm.acts _ (mem_threads_of_get hi) _ List.mem_cons_self).1
  have hloc : markLoc m.h a0.ref = markLoc hc a0.ref := by
    rw [hm.same]; exact markLoc_mark hc _ _
  have hacts : ∀ l ∈ (setThread m i (new ++ rest)).threads, ∀ a ∈ l, Reach hc R a.ref ∧
      ∀ x, a = .only x → ∀ c, bodyAt hc x = some c → c.isStorage := by
    intro l hl a ha
    rcases mem_set_threads hi hl with rfl | hl
    · rcases List.mem_append.1 ha with ha | ha
      · exact hnew a ha
      · exact hm.acts _ (mem_threads_of_get hi) a (List.mem_cons_of_mem _ ha)
    · exact hm.acts l hl a ha
  have hsub : ∀ x ∈ rest, x ∈ new ++ rest := fun x hx => List.mem_append_right _ hx
  have hblk : ∀ l ∈ m.threads, ∀ x, Act.black x ∈ l → Act.black x = a0 ∨
      ∃ l ∈ (setThread m i (new ++ rest)).threads, Act.black x ∈ l := by
    intro l hl x hx
    rcases old_mem_set (new := new ++ rest) hi hl with rfl | hl
    · rcases List.mem_cons.1 hx with h | hx
      · exact Or.inl h
      · exact Or.inr ⟨_, new_mem_set hi, hsub _ hx⟩
    · exact Or.inr ⟨l, hl, hx⟩
  unfold doOnly
  rw [show (setThread m i (new ++ rest)).h = m.h from rfl, hloc]
  rcases loc_reach w hcur hr with ⟨hl, _⟩ | ⟨p, s, n, b, ks, hl, hp, hat, ho, hcell, hk, _, _, _⟩
  · rw [hl]
    have hcov : ∀ x, Pending m x ∨ Seen hc m x →
        Pending (setThread m i (new ++ rest)) x ∨
        Seen hc (setThread m i (new ++ rest)) x := by
      rintro x (h | h)
      · rcases pending_after hi hsub h with he | h
        · right
          intro p' s' hps
          rw [he, hl] at hps
          cases hps
        · exact Or.inl h
      · exact Or.inr h
    refine ⟨_, rfl, hm.same, hm.bag, hacts, hm.marked, ?_, ?_,
      fun r hr => hcov r (hm.roots r hr)⟩
    · intro p s hp hg
      rcases hm.gray p s hp hg with h | h | ⟨l, hl', x, hx, hxl⟩
      · exact Or.inl h
      · exact Or.inr (Or.inl h)
      · rcases hblk l hl' x hx with he | ⟨l, hl', hx⟩
        · have : x = a0.ref := by rw [← he]; rfl
          rw [this, hl] at hxl
          cases hxl
        · exact Or.inr (Or.inr ⟨l, hl', x, hx, hxl⟩)
    · intro p s hp hb n b ks hcell hk a ha
      exact hcov _ (hm.black p s hp hb n b ks hcell hk a ha)
  · rw [hl]
    have hcov : ∀ x, Pending m x ∨ Seen hc m x →
        Pending { setThread m i (new ++ rest) with
          h := { m.h with mark := setBlack m.h.mark p s } } x ∨
        Seen hc { setThread m i (new ++ rest) with
          h := { m.h with mark := setBlack m.h.mark p s } } x := by
      rintro x (h | h)
      · rcases pending_after hi hsub h with he | h
        · right
          intro p'' s'' hps
          rw [he, hl] at hps
          cases hps
          exact (any_setBlack _ p s p s).2 (Or.inr ⟨rfl, rfl⟩)
        · exact Or.inl h
      · right
        intro p'' s'' hps
        exact (any_setBlack _ p s p'' s'').2 (Or.inl (h p'' s'' hps))
    refine ⟨_, rfl, ?_, hm.bag, hacts, ?_, ?_, ?_, fun r hr => hcov r (hm.roots r hr)⟩
    · show ({ m.h with mark := _ } : Heap) = _
      rw [hm.same]
    · intro q t hq ha
      rcases (any_setBlack _ p s q t).1 ha with h | ⟨rfl, rfl⟩
      · exact hm.marked q t hq h
      · exact hat
    · intro q t hq hg'
      change (setBlack m.h.mark p s q t).gray = true at hg'
      change (setBlack m.h.mark p s q t).black = true ∨ _
      rw [(setBlack_spec m.h.mark p s q t).2] at hg'
      rw [(setBlack_spec m.h.mark p s q t).1]
      rcases hm.gray q t hq hg' with h | h | ⟨l, hl', x, hx, hxl⟩
      · exact Or.inl (Or.inl h)
      · exact Or.inr (Or.inl h)
      · rcases hblk l hl' x hx with he | ⟨l, hl', hx⟩
        · have : x = a0.ref := by rw [← he]; rfl
          rw [this, hl] at hxl
          cases hxl
          exact Or.inl (Or.inr ⟨rfl, rfl⟩)
        · exact Or.inr (Or.inr ⟨l, hl', x, hx, hxl⟩)
    · intro q t hq hb n' b' ks' hcell' hk' a ha
      change (setBlack m.h.mark p s q t).black = true at hb
      rcases (setBlack_spec m.h.mark p s q t).1.1 hb with hb | ⟨rfl, rfl⟩
      · exact hcov _ (hm.black q t hq hb n' b' ks' hcell' hk' a ha)
      · left
        exact ⟨_, new_mem_set hi, a,
          List.mem_append_left _ (hks q t n' b' ks' hl hcell' hk' a ha), rfl⟩

/-- A step of any thread is possible and keeps the invariant. -/
theorem MInv.step (w : Wf cfg hc R) (hcur : hc.cur = none) {m : Marking}
    (hm : MInv hc R m) (i j : Nat) : ∃ m', stepMark m i j = some m' ∧ MInv hc R m' := by
  unfold stepMark
  rcases hi : m.threads[i]? with _ | (_ | ⟨a, rest⟩)
  · exact ⟨m, rfl, hm⟩
  · rcases hj : m.bag[j]? with _ | r
    · exact ⟨m, rfl, hm⟩
    · exact ⟨_, rfl, hm.take hi hj⟩
  · simp only
    have hr := hm.acts _ (mem_threads_of_get hi) _ List.mem_cons_self
    have hcell : ∀ p s, m.h.cell p s = hc.cell p s := by intro p s; rw [hm.same]
    cases a with
    | gray r => exact hm.gray_step w hcur hi
    | only r =>
      refine hm.black_step (new := []) w hcur hi (by simp) ?_
      intro p s n b ks hl hcell hk a ha
      rcases loc_reach w hcur hr.1 with ⟨hl', _⟩ |
        ⟨p', s', n', b', ks', hl', _, _, _, hcell', hk', _, _, b0, hb0, hk0⟩
      · rw [hl] at hl'; cases hl'
      · rw [hl] at hl'
        cases hl'
        rw [hcell] at hcell'
        cases hcell'
        rw [hk] at hk'
        cases hk'
        have hst := hr.2 r rfl b0 hb0
        cases b0 <;> simp [Body.isStorage] at hst <;> (cases hk0; cases ha)
    | black r =>
      have hbk : blackKids m.h r = blackKids hc r := by
        rw [hm.same]; exact blackKids_mark hc _ r
      have hr1 : Reach hc R r := hr.1
      simp only [doAct, hbk]
      rcases loc_reach w hcur hr1 with ⟨hl', hk'⟩ |
        ⟨p', s', n', b', ks', hl', _, _, _, hcell', hk', hbk', _, b0, hb0, hk0⟩
      · simp only [hk']
        refine hm.black_step (new := []) w hcur hi (by simp) ?_
        intro p s n b ks hl
        rw [show (Act.black r).ref = r from rfl, hl'] at hl
        cases hl
      · simp only [hbk']
        refine hm.black_step (new := ks') w hcur hi (kids_reach w hr.1 hb0 hk0) ?_
        intro p s n b ks hl hcell hk a ha
        rw [show (Act.black r).ref = r from rfl, hl'] at hl
        cases hl
        rw [hcell] at hcell'
        cases hcell'
        rw [hk] at hk'
        cases hk'
        exact ha

theorem MInv.run (w : Wf cfg hc R) (hcur : hc.cur = none) :
    ∀ (sch : List (Nat × Nat)) {m : Marking}, MInv hc R m →
      ∃ m', runMark sch m = some m' ∧ MInv hc R m'
  | [], m, hm => ⟨m, rfl, hm⟩
  | (i, j) :: sch, m, hm => by
    obtain ⟨m1, h1, hm1⟩ := hm.step w hcur i j
    simp only [runMark, h1]
    exact MInv.run w hcur sch hm1

end

end Verif.Gc
