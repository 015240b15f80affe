import Verif.Gc.OpaqueProof

/-! # Moving objects: the invariant -/

namespace Verif.Gc

/-- Where the header of an object says that the object is. -/
def fwd (c : Nat → Nat → Option Obj) (p s : Nat) : Nat × Nat :=
  match c p s with
  | some ⟨.moved q t, _⟩ => (q, t)
  | _ => (p, s)

theorem fwd_own {c : Nat → Nat → Option Obj} {p s n : Nat} {b : Body}
    (h : c p s = some ⟨.own n, b⟩) : fwd c p s = (p, s) := by simp [fwd, h]

theorem fwd_moved {c : Nat → Nat → Option Obj} {p s q t : Nat} {b : Body}
    (h : c p s = some ⟨.moved q t, b⟩) : fwd c p s = (q, t) := by simp [fwd, h]

theorem fwd_congr {c d : Nat → Nat → Option Obj} {p s : Nat} (h : d p s = c p s) :
    fwd d p s = fwd c p s := by simp [fwd, h]

/-- The object has not been moved. -/
def Stays (h0 h : Heap) (O : List Nat) (B : Nat → Nat) (p s : Nat) : Prop :=
  h.cell p s = h0.cell p s ∧ ((p ∈ O ∧ B p ≤ s) ∨ IsObj h p s)

/-- The object has been moved. -/
def Gone (h0 h : Heap) (O : List Nat) (B : Nat → Nat) (p s : Nat) : Prop :=
  p ∈ O ∧ s < B p ∧ ∃ n b q t, h0.cell p s = some ⟨.own n, b⟩ ∧
    h.cell p s = some ⟨.moved q t, b⟩ ∧ h.cell q t = some ⟨.own n, b⟩ ∧ IsObj h q t

/-- An object has been seen: its page is back, or it is before the bound of its page, or the page
is `inc`. -/
def Past (O : List Nat) (B : Nat → Nat) (inc : Option Nat) (p s : Nat) : Prop :=
  p ∈ O → s < B p ∨ inc = some p

/-- The calls `l` are those of the objects not to be kept which have been seen. -/
structure Calls (h0 : Heap) (L : Nat → Nat → Prop) (l : List (Ref × Nat)) (O : List Nat)
    (B : Nat → Nat) (inc : Option Nat) : Prop where
  sound : ∀ e ∈ l, ∃ p s, IsObj h0 p s ∧ ¬ L p s ∧ Owes h0 p s e ∧ Past O B inc p s
  all : ∀ p s e, IsObj h0 p s → ¬ L p s → Owes h0 p s e → Past O B inc p s → e ∈ l
  once : NoMod h0 L → l.Nodup

theorem Calls.step {h0 : Heap} {L : Nat → Nat → Prop} {l l' : List (Ref × Nat)}
    {O O' : List Nat} {B B' : Nat → Nat} {inc inc' : Option Nat} (ht : TrackersOk h0)
    (c : Calls h0 L l O B inc)
    (hm : ∀ p s, IsObj h0 p s → ¬ L p s → Past O B inc p s → Past O' B' inc' p s)
    (hs : ∀ e ∈ l', ∃ p s, IsObj h0 p s ∧ ¬ L p s ∧ Owes h0 p s e ∧ Past O' B' inc' p s)
    (ha : ∀ p s e, IsObj h0 p s → ¬ L p s → Owes h0 p s e → Past O' B' inc' p s →
      Past O B inc p s ∨ e ∈ l')
    (hn : NoMod h0 L → l'.Nodup ∧ ∀ e ∈ l', ∃ p s, IsObj h0 p s ∧ ¬ L p s ∧ Owes h0 p s e ∧
      ¬ Past O B inc p s) : Calls h0 L (l ++ l') O' B' inc' := by
  refine ⟨?_, ?_, ?_⟩
  · intro e he
    rcases List.mem_append.1 he with h1 | h1
    · obtain ⟨p, s, h2, h3, h4, h5⟩ := c.sound e h1
      exact ⟨p, s, h2, h3, h4, hm p s h2 h3 h5⟩
    · exact hs e h1
  · intro p s e h1 h2 h3 h4
    rcases ha p s e h1 h2 h3 h4 with h5 | h5
    · exact List.mem_append.2 (Or.inl (c.all p s e h1 h2 h3 h5))
    · exact List.mem_append.2 (Or.inr h5)
  · intro h
    refine List.nodup_append.2 ⟨c.once h, (hn h).1, ?_⟩
    rintro a h1 b h2 rfl
    obtain ⟨p, s, h3, _, h4, h5⟩ := c.sound a h1
    obtain ⟨p', s', h6, _, h7, h8⟩ := (hn h).2 a h2
    obtain ⟨rfl, rfl⟩ := h4.uniq ht h7 h3 h6
    exact h8 h5

/-- No call has been made. -/
theorem Calls.same {h0 : Heap} {L : Nat → Nat → Prop} {l : List (Ref × Nat)}
    {O O' : List Nat} {B B' : Nat → Nat} {inc inc' : Option Nat} (c : Calls h0 L l O B inc)
    (hm : ∀ p s, IsObj h0 p s → ¬ L p s → (Past O B inc p s ↔ Past O' B' inc' p s)) :
    Calls h0 L l O' B' inc' := by
  refine ⟨?_, ?_, c.once⟩
  · intro e he
    obtain ⟨p, s, h2, h3, h4, h5⟩ := c.sound e he
    exact ⟨p, s, h2, h3, h4, (hm p s h2 h3).1 h5⟩
  · intro p s e h1 h2 h3 h4
    exact c.all p s e h1 h2 h3 ((hm p s h1 h2).2 h4)

/-- While objects are moved.  `h0` is the heap before, with the objects `L` to be kept.  `O`
are the pages taken out of the heap; the objects of page `p ∈ O` before slot `B p` have been
seen, the others have not.  In page `inc`, the objects after that slot which are not to be kept
are opaque. -/
structure EInv (cfg : Cfg) (h0 : Heap) (L : Nat → Nat → Prop) (h : Heap) (O : List Nat)
    (B : Nat → Nat) (inc : Option Nat) : Prop where
  lists : Lists cfg h
  out : O.Nodup
  apart : ∀ p ∈ O, p ∉ h.all
  outlt : ∀ p ∈ O, p < h.next
  orig : ∀ p ∈ O, p ∈ h0.used
  bound : ∀ p ∈ O, B p ≤ h0.num p ∧ Tile (h0.cell p) 0 (B p)
  num : ∀ p ∈ O, h.num p = h0.num p ∨ (h.num p = 0 ∧ (∀ s, ¬ L p s) ∧ B p = h0.num p)
  same : ∀ p ∈ O, inc ≠ some p → ∀ s, B p ≤ s → s < h0.num p → h.cell p s = h0.cell p s
  done : ∀ p ∈ O, inc ≠ some p → h.num p = h0.num p → ∀ s n b, s < B p →
    Tile (h0.cell p) 0 s → h0.cell p s = some ⟨.own n, b⟩ → ¬ L p s →
    ∃ b', h.cell p s = some ⟨.own n, b'⟩ ∧ Dead b' ∧ Spent b b'
  keep : ∀ p ∈ O, h.flag p = h0.flag p ∧ ∀ s, h.mark p s = h0.mark p s
  tiled : ∀ p, h.inUse p → Tile (h.cell p) 0 (h.num p)
  live : ∀ p s, L p s → Stays h0 h O B p s ∨ Gone h0 h O B p s
  inj : ∀ p s p' s', L p s → L p' s' → fwd h.cell p s = fwd h.cell p' s' → p = p' ∧ s = s'
  objs : ∀ p s n b, IsObj h p s → h.cell p s = some ⟨.own n, b⟩ →
    (∃ p' s', L p' s' ∧ fwd h.cell p' s' = (p, s)) ∨ b = .opaque 0
  huges : ∀ p s n k, IsObj h0 p s → (L p s ∨ (p ∈ O ∧ inc ≠ some p ∧ B p ≤ s)) →
    h0.cell p s = some ⟨.own n, .tracker (.huge k)⟩ → h.huge k = h0.huge k
  part : ∀ p, inc = some p → p ∈ O ∧ h.num p = h0.num p ∧ ∀ x n b, B p ≤ x →
    x < h0.num p → Tile (h0.cell p) 0 x → h0.cell p x = some ⟨.own n, b⟩ → ¬ L p x →
    h.cell p x = some ⟨.own n, .opaque 0⟩
  calls : ∃ l, h.log = h0.log ++ l ∧ Calls h0 L l O B inc

theorem Heap.mem_all {h : Heap} {p : Nat} : p ∈ h.all ↔ h.inUse p ∨ p ∈ h.free := by
  rw [inUse_iff, Heap.all, List.mem_append]

/-- Two trackers of one huge object are the same. -/
theorem TrackersOk.uniq {h : Heap} (ht : TrackersOk h) {p s n p' s' n' k : Nat}
    (ho : IsObj h p s) (hc : h.cell p s = some ⟨.own n, .tracker (.huge k)⟩)
    (ho' : IsObj h p' s') (hc' : h.cell p' s' = some ⟨.own n', .tracker (.huge k)⟩) :
    p = p' ∧ s = s' := by
  rcases ht p s n _ ho hc with e1 | ⟨k1, y1, e1, f1, g1, _⟩
  · cases e1
  rcases ht p' s' n' _ ho' hc' with e2 | ⟨k2, y2, e2, f2, g2, _⟩
  · cases e2
  cases e1
  cases e2
  rw [f1] at f2
  cases f2
  rw [g1] at g2
  injection g2 with h1 h2
  exact ⟨h1, h2⟩

section
variable {cfg : Cfg} {h0 h h' : Heap} {L : Nat → Nat → Prop} {R : List Ref} {O : List Nat}
  {B : Nat → Nat} {inc : Option Nat}

theorem EInv.notUse (e : EInv cfg h0 L h O B inc) {p : Nat} (hp : p ∈ O) : ¬ h.inUse p :=
  fun hu => e.apart p hp (Heap.mem_all.2 (Or.inl hu))

/-- The start: nothing has been moved. -/
theorem EInv.start (c0 : Closed cfg h0 L R) :
    EInv cfg h0 L { h0 with used := [] } h0.used (fun _ => 0) none := by
  have hnd := c0.pages.nodup
  have hlt := c0.pages.lt
  rw [c0.cur] at hnd hlt
  simp only [Option.toList, List.nil_append] at hnd hlt
  have huse : ∀ p, ¬ ({ h0 with used := [] } : Heap).inUse p := by
    rintro p (hp | hp)
    · cases hp
    · simp [c0.cur] at hp
  have hown : ∀ p s, L p s → ∃ n b, h0.cell p s = some ⟨.own n, b⟩ := by
    intro p s hl
    obtain ⟨n, b, hb, _⟩ := c0.pages.obj (c0.obj p s hl)
    exact ⟨n, b, hb⟩
  refine ⟨⟨?_, ?_, c0.pages.free, fun p hp => absurd hp (huse p)⟩, ?_, ?_, ?_, fun p hp => hp,
    fun p hp => ⟨Nat.zero_le _, .nil _⟩, fun p hp => Or.inl rfl, fun p hp _ s _ _ => rfl,
    fun p hp _ _ s n b hs => absurd hs (by omega), fun p hp => ⟨rfl, fun s => rfl⟩,
    fun p hp => absurd hp (huse p), ?_, ?_, fun p s n b ho => absurd ho.1 (huse p),
    fun _ _ _ _ _ _ _ => rfl, fun p hp => (by cases hp), [], by simp, by simp, ?_, by simp⟩
  · simp only [Heap.all, c0.cur, Option.toList, List.nil_append]
    exact (List.nodup_append.1 hnd).2.1
  · simp only [Heap.all, c0.cur, Option.toList, List.nil_append]
    exact fun p hp => hlt p (List.mem_append.2 (Or.inr hp))
  · exact (List.nodup_append.1 hnd).1
  · simp only [Heap.all, c0.cur, Option.toList, List.nil_append]
    exact fun p hp hf => (List.nodup_append.1 hnd).2.2 p hp p hf rfl
  · exact fun p hp => hlt p (List.mem_append.2 (Or.inl hp))
  · intro p s hl
    refine Or.inl ⟨rfl, Or.inl ⟨?_, Nat.zero_le _⟩⟩
    rcases (c0.obj p s hl).1 with h | h
    · exact h
    · rw [c0.cur] at h; cases h
  · intro p s p' s' hl hl' he
    obtain ⟨n, b, hb⟩ := hown p s hl
    obtain ⟨n', b', hb'⟩ := hown p' s' hl'
    rw [fwd_own (c := h0.cell) hb, fwd_own (c := h0.cell) hb'] at he
    exact ⟨congrArg Prod.fst he, congrArg Prod.snd he⟩
  · intro p s e ho _ _ hs
    exfalso
    rcases ho.1 with h | h
    · rcases hs h with h1 | h1
      · exact absurd h1 (Nat.not_lt_zero _)
      · cases h1
    · rw [c0.cur] at h; cases h

/-- The order of the pages taken out does not matter. -/
theorem EInv.perm (e : EInv cfg h0 L h O B inc) {O' : List Nat} (hp : O'.Perm O) :
    EInv cfg h0 L h O' B inc := by
  have hm : ∀ p, p ∈ O' ↔ p ∈ O := fun p => hp.mem_iff
  exact ⟨e.lists, hp.nodup_iff.2 e.out, fun p h => e.apart p ((hm p).1 h),
    fun p h => e.outlt p ((hm p).1 h), fun p h => e.orig p ((hm p).1 h),
    fun p h => e.bound p ((hm p).1 h), fun p h => e.num p ((hm p).1 h),
    fun p h => e.same p ((hm p).1 h), fun p h => e.done p ((hm p).1 h),
    fun p h => e.keep p ((hm p).1 h), e.tiled,
    fun p s hl => (e.live p s hl).imp
      (fun h => ⟨h.1, h.2.imp (fun h => ⟨(hm p).2 h.1, h.2⟩) id⟩)
      (fun h => ⟨(hm p).2 h.1, h.2⟩), e.inj, e.objs,
    fun p s n k ho h => e.huges p s n k ho (h.imp id fun h => ⟨(hm p).1 h.1, h.2⟩),
    fun p h => ⟨(hm p).2 (e.part p h).1, (e.part p h).2⟩,
    e.calls.imp fun l h => ⟨h.1, h.2.same fun p s _ _ => by unfold Past; rw [hm]⟩⟩

/-- Only the pages in the lists have changed places, and marks outside of `O`. -/
theorem EInv.same_heap (e : EInv cfg h0 L h O B inc) (sh : SameHeap h h')
    (hlog : h'.log = h.log)
    (hk : ∀ p ∈ O, h'.flag p = h.flag p ∧ ∀ s, h'.mark p s = h.mark p s) :
    EInv cfg h0 L h' O B inc := by
  have hall : h'.all.Perm h.all := all_perm_of sh.free sh.perm
  have hl : Lists cfg h' := by
    refine ⟨hall.nodup_iff.2 e.lists.nodup, ?_, ?_, ?_⟩
    · intro p hp; rw [sh.next]; exact e.lists.lt p (hall.mem_iff.1 hp)
    · rw [sh.free, sh.num]; exact e.lists.free
    · intro p hp; rw [sh.num]; exact e.lists.le p ((sh.inUse p).1 hp)
  have hc := sh.cell
  have hn := sh.num
  have ho := sh.isObj
  have hh := sh.huge
  refine ⟨hl, e.out, fun p hp hm => e.apart p hp (hall.mem_iff.1 hm), ?_, e.orig, e.bound, ?_,
    ?_, ?_, fun p hp => ⟨(hk p hp).1.trans (e.keep p hp).1,
      fun s => ((hk p hp).2 s).trans ((e.keep p hp).2 s)⟩, ?_, ?_, ?_, ?_, ?_, ?_,
    by rw [hlog]; exact e.calls⟩
  · rw [sh.next]; exact e.outlt
  · rw [hn]; exact e.num
  · rw [hc]; exact e.same
  · rw [hc, hn]; exact e.done
  · intro p hp; rw [hc, hn]; exact e.tiled p ((sh.inUse p).1 hp)
  · intro p s hl
    rcases e.live p s hl with h1 | ⟨h1, h2, n, b, q, t, h3, h4, h5, h6⟩
    · exact Or.inl ⟨by rw [hc]; exact h1.1, h1.2.imp id (ho p s).2⟩
    · exact Or.inr ⟨h1, h2, n, b, q, t, h3, by rw [hc]; exact h4, by rw [hc]; exact h5,
        (ho q t).2 h6⟩
  · rw [hc]; exact e.inj
  · intro p s n b hob
    rw [hc]; exact e.objs p s n b ((ho p s).1 hob)
  · rw [hh]; exact e.huges
  · rw [hc, hn]; exact e.part

theorem EInv.release (e : EInv cfg h0 L h O B inc) :
    EInv cfg h0 L (release cfg h) O B inc := by
  refine e.same_heap (release_same cfg h) (by unfold Gc.release; split <;> rfl) fun p _ => ?_
  unfold Gc.release
  split <;> exact ⟨rfl, fun _ => rfl⟩

theorem EInv.denied (e : EInv cfg h0 L h O B inc) (d : Denied h h') :
    EInv cfg h0 L h' O B inc :=
  e.same_heap d.same d.log fun p _ => ⟨by rw [d.flag], fun s => by rw [d.mark]⟩

theorem EInv.blacken (e : EInv cfg h0 L h O B inc) :
    EInv cfg h0 L (blacken h) O B inc := by
  refine e.same_heap ⟨rfl, rfl, rfl, rfl, rfl, .refl _⟩ rfl fun p hp => ?_
  have hn : p ∉ h.used := fun hu => e.notUse hp (Or.inl hu)
  simp [Gc.blacken, hn]

/-- The object at the bound of page `p`. -/
theorem EInv.next (e : EInv cfg h0 L h O B inc) (c0 : Closed cfg h0 L R) {p : Nat}
    (hp : p ∈ O) (hlt : B p < h0.num p) : ∃ n b, h0.cell p (B p) = some ⟨.own n, b⟩ ∧ 0 < n ∧
      B p + n ≤ h0.num p ∧ n ≤ cfg.spp ∧ Tile (h0.cell p) 0 (B p + n) ∧ IsObj h0 p (B p) := by
  have ho : IsObj h0 p (B p) := ⟨Or.inl (e.orig p hp), hlt, (e.bound p hp).2⟩
  obtain ⟨n, b, hb, hn, hle, _⟩ := c0.pages.obj ho
  have := (c0.pages.tiled p ho.1).1
  exact ⟨n, b, hb, hn, hle, by omega, ho.2.2.trans (.cons hb hn (.nil _)), ho⟩

theorem IsObj.own (e : EInv cfg h0 L h O B inc) {p s : Nat} (ho : IsObj h p s) :
    ∃ n b, h.cell p s = some ⟨.own n, b⟩ ∧ 0 < n ∧ s + n ≤ h.num p := by
  obtain ⟨n, b, hb, hn, hle, _⟩ :=
    (ho.2.2.rest (e.tiled p ho.1) (Nat.le_of_lt ho.2.1)).head ho.2.1
  exact ⟨n, b, hb, hn, hle⟩

theorem L_own (c0 : Closed cfg h0 L R) {p s : Nat} (hl : L p s) :
    ∃ n b, h0.cell p s = some ⟨.own n, b⟩ ∧ 0 < n := by
  obtain ⟨n, b, hb, hn, _⟩ := c0.pages.obj (c0.obj p s hl)
  exact ⟨n, b, hb, hn⟩

/-- An object which is to be kept is moved. -/
theorem EInv.move (c0 : Closed cfg h0 L R) (e : EInv cfg h0 L h O B none) {p n q t : Nat}
    {b : Body} {h1 : Heap} (hp : p ∈ O) (hlt : B p < h0.num p) (hl : L p (B p))
    (hb : h0.cell p (B p) = some ⟨.own n, b⟩) (a : Alloced cfg h h1 n q t)
    (hh' : h' = { putObj h1 q t n b with
      cell := setCell (putObj h1 q t n b).cell p (B p) (some ⟨.moved q t, b⟩) }) :
    EInv cfg h0 L h' O (setNum B p (B p + n)) none := by
  obtain ⟨n', b', hb', hn, hle, hspp, ht', ho⟩ := e.next c0 hp hlt
  rw [hb] at hb'
  cases hb'
  have hqall : q ∈ h.all ∨ h.next ≤ q := by
    rcases a.place with ⟨hu, _⟩ | ⟨_, _, hf | hf⟩
    · exact Or.inl (Heap.mem_all.2 (Or.inl hu))
    · exact Or.inl (Heap.mem_all.2 (Or.inr hf))
    · exact Or.inr hf
  have hqO : q ∉ O := by
    intro hq
    rcases hqall with h1 | h1
    · exact e.apart q hq h1
    · have := e.outlt q hq; omega
  have hqp : q ≠ p := fun h => hqO (h ▸ hp)
  have hpu := e.notUse hp
  -- the cells
  have hc1 : h'.cell p (B p) = some ⟨.moved q t, b⟩ := by rw [hh']; exact setCell_same _ _ _ _
  have hc2 : h'.cell q t = some ⟨.own n, b⟩ := by
    rw [hh']
    simp only [setCell, hqp, false_and, if_false, putObj, and_self, if_true]
  have hc3 : ∀ x y, ¬ (x = p ∧ y = B p) → ¬ (x = q ∧ t ≤ y) → h'.cell x y = h.cell x y := by
    intro x y h1 h2
    rw [hh']
    simp only [setCell, if_neg h1, putObj]
    rw [if_neg (by omega), if_neg (by omega), a.cell]
  have hnum : ∀ x, x < h.next → x ≠ q → h'.num x = h.num x := by
    intro x hx hxq; rw [hh']; exact a.num x hx hxq
  have hnumq : h'.num q = t + n := by rw [hh']; exact a.numq
  have huse : ∀ x, h'.inUse x ↔ h.inUse x ∨ x = q := by
    intro x; rw [← a.use x, hh']; rfl
  have hult : ∀ x, h.inUse x → x < h.next :=
    fun x hx => e.lists.lt x (Heap.mem_all.2 (Or.inl hx))
  have hallc : h'.all = h1.all := by rw [hh']; rfl
  -- objects in use stay
  have hfront : ∀ x y, IsObj h x y → x ≠ q ∨ y < t := by
    intro x y hxy
    by_cases hxq : x = q
    · right
      subst hxq
      rcases a.place with ⟨_, h2⟩ | ⟨_, h2, _⟩
      · rw [h2]; exact hxy.2.1
      · exact absurd hxy.1 h2
    · exact Or.inl hxq
  have hcells : ∀ x y, IsObj h x y → h'.cell x y = h.cell x y := by
    intro x y hxy
    refine hc3 x y ?_ ?_
    · rintro ⟨rfl, _⟩; exact hpu hxy.1
    · have := hfront x y hxy; omega
  have htile : ∀ x y, h.inUse x → (x ≠ q ∨ y ≤ t) → Tile (h.cell x) 0 y →
      Tile (h'.cell x) 0 y := by
    intro x y hx hy ht
    refine ht.congr fun z _ hz => hc3 x z ?_ (by omega)
    rintro ⟨rfl, _⟩; exact hpu hx
  have hobj : ∀ x y, IsObj h x y → IsObj h' x y := by
    intro x y hxy
    have hf := hfront x y hxy
    refine ⟨(huse x).2 (Or.inl hxy.1), ?_, htile x y hxy.1 (by omega) hxy.2.2⟩
    by_cases hxq : x = q
    · subst hxq
      rw [hnumq]
      omega
    · rw [hnum x (hult x hxy.1) hxq]; exact hxy.2.1
  have htq : Tile (h'.cell q) 0 t := by
    rcases a.place with ⟨h1, h2⟩ | ⟨h1, _⟩
    · exact htile q t h1 (by omega) (h2 ▸ e.tiled q h1)
    · rw [h1]; exact .nil _
  have hobjq : IsObj h' q t := ⟨(huse q).2 (Or.inr rfl), by rw [hnumq]; omega, htq⟩
  have hobj' : ∀ x y, IsObj h' x y → (x = q ∧ y = t) ∨ IsObj h x y := by
    intro x y hxy
    by_cases hxq : x = q
    · subst hxq
      have h1 := hxy.2.1
      rw [hnumq] at h1
      rcases Nat.lt_trichotomy y t with h2 | h2 | h2
      · right
        rcases a.place with ⟨h3, h4⟩ | ⟨h3, _⟩
        · refine ⟨h3, by omega, hxy.2.2.congr fun z _ hz => (hc3 x z ?_ (by omega)).symm⟩
          rintro ⟨rfl, _⟩; exact hqp rfl
        · omega
      · exact Or.inl ⟨rfl, h2⟩
      · have := htq.no_inside hxy.2.2 hc2 h2
        omega
    · right
      have h1 : h.inUse x := by
        rcases (huse x).1 hxy.1 with h1 | h1
        · exact h1
        · exact absurd h1 hxq
      refine ⟨h1, ?_, hxy.2.2.congr fun z _ hz => (hc3 x z ?_ (by omega)).symm⟩
      · rw [← hnum x (hult x h1) hxq]; exact hxy.2.1
      · rintro ⟨rfl, _⟩; exact hpu h1
  -- kept objects
  have hLcell : ∀ x y, L x y → ¬ (x = p ∧ y = B p) → h'.cell x y = h.cell x y := by
    intro x y hxy hne
    rcases e.live x y hxy with ⟨_, h1 | h1⟩ | ⟨h1, _⟩
    · exact hc3 x y hne fun h => hqO (h.1 ▸ h1.1)
    · exact hcells x y h1
    · exact hc3 x y hne fun h => hqO (h.1 ▸ h1)
  have hBp : ∀ x, B x ≤ setNum B p (B p + n) x := by
    intro x
    by_cases hx : x = p
    · subst hx; rw [setNum_same]; omega
    · rw [setNum_ne _ _ hx]; omega
  have hcellp : h.cell p (B p) = some ⟨.own n, b⟩ := by
    rw [e.same p hp (by simp) (B p) (Nat.le_refl _) hlt, hb]
  -- where kept objects are
  have hfw : ∀ x y, L x y → ¬ (x = p ∧ y = B p) →
      fwd h'.cell x y = fwd h.cell x y ∧ fwd h.cell x y ≠ (q, t) := by
    intro x y hxy hne
    refine ⟨fwd_congr (hLcell x y hxy hne), ?_⟩
    rcases e.live x y hxy with ⟨h1, h2⟩ | ⟨_, _, m, c, q', t', _, h3, _, h4⟩
    · obtain ⟨m, c, hm, _⟩ := L_own c0 hxy
      rw [fwd_own (h1.trans hm)]
      intro he
      cases he
      rcases h2 with h2 | h2
      · exact hqO h2.1
      · have := hfront _ _ h2; omega
    · rw [fwd_moved h3]
      intro he
      cases he
      have := hfront _ _ h4; omega
  refine ⟨?_, e.out, ?_, ?_, e.orig, ?_, ?_, ?_, ?_, ?_, ?_, ?_, ?_, ?_, ?_,
    fun x hx => (by cases hx), ?_⟩
  · have := a.lists e.lists
    exact ⟨hallc ▸ this.nodup, by rw [hallc, hh']; exact this.lt, by rw [hh']; exact this.free,
      by rw [hh']; exact this.le⟩
  · intro x hx hxa
    rw [hallc] at hxa
    obtain ⟨new, _, hnew, hperm⟩ := a.perm
    rcases List.mem_append.1 (hperm.mem_iff.1 hxa) with h1 | h1
    · have := hnew x h1
      have := e.outlt x hx
      omega
    · exact e.apart x hx h1
  · intro x hx
    have h1 := e.outlt x hx
    have := a.next
    rw [hh']
    exact Nat.lt_of_lt_of_le h1 this
  · intro x hx
    by_cases hxp : x = p
    · subst hxp; rw [setNum_same]; exact ⟨hle, ht'⟩
    · rw [setNum_ne _ _ hxp]; exact e.bound x hx
  · intro x hx
    rw [hnum x (e.outlt x hx) fun h => hqO (h ▸ hx)]
    rcases e.num x hx with h1 | ⟨h1, h2, h3⟩
    · exact Or.inl h1
    · refine Or.inr ⟨h1, h2, ?_⟩
      rw [setNum_ne _ _ ?_, h3]
      rintro rfl
      exact h2 _ hl
  · intro x hx hi y hy hy'
    rw [hc3 x y ?_ fun h => hqO (h.1 ▸ hx)]
    · exact e.same x hx hi y (Nat.le_trans (hBp x) hy) hy'
    · rintro ⟨rfl, rfl⟩
      rw [setNum_same] at hy
      omega
  · intro x hx hi hnx y m c hy hty hc hnl
    rw [hnum x (e.outlt x hx) fun h => hqO (h ▸ hx)] at hnx
    rw [hc3 x y ?_ fun h => hqO (h.1 ▸ hx)]
    · refine e.done x hx hi hnx y m c ?_ hty hc hnl
      by_cases hxp : x = p
      · subst hxp
        rw [setNum_same] at hy
        rcases Nat.lt_trichotomy y (B x) with h1 | h1 | h1
        · exact h1
        · subst h1; exact absurd hl hnl
        · have := ho.2.2.no_inside hty hb h1
          omega
      · rw [setNum_ne _ _ hxp] at hy; exact hy
    · rintro ⟨rfl, rfl⟩
      exact hnl hl
  · intro x hx
    rw [hh']
    exact ⟨by rw [show (putObj h1 q t n b).flag = h1.flag from rfl, a.flag]; exact (e.keep x hx).1,
      fun s => by
        rw [show (putObj h1 q t n b).mark = h1.mark from rfl, a.mark]; exact (e.keep x hx).2 s⟩
  · intro x hx
    by_cases hxq : x = q
    · subst hxq
      rw [hnumq]
      exact htq.trans (.cons hc2 hn (.nil _))
    · have h1 : h.inUse x := by
        rcases (huse x).1 hx with h1 | h1
        · exact h1
        · exact absurd h1 hxq
      rw [hnum x (hult x h1) hxq]
      exact htile x _ h1 (Or.inl hxq) (e.tiled x h1)
  · intro x y hxy
    by_cases hne : x = p ∧ y = B p
    · obtain ⟨rfl, rfl⟩ := hne
      exact Or.inr ⟨hp, by rw [setNum_same]; omega, n, b, q, t, hb, hc1, hc2, hobjq⟩
    · have hcx := hLcell x y hxy hne
      rcases e.live x y hxy with ⟨h1, h2⟩ | ⟨h1, h2, m, c, q', t', h3, h4, h5, h6⟩
      · left
        refine ⟨hcx.trans h1, ?_⟩
        rcases h2 with ⟨h2, h3⟩ | h2
        · left
          refine ⟨h2, ?_⟩
          by_cases hxp : x = p
          · subst hxp
            rw [setNum_same]
            exact ho.2.2.no_inside (c0.obj x y hxy).2.2 hb (by omega)
          · rw [setNum_ne _ _ hxp]; exact h3
        · exact Or.inr (hobj x y h2)
      · exact Or.inr ⟨h1, Nat.lt_of_lt_of_le h2 (hBp x), m, c, q', t', h3, hcx.trans h4,
          (hcells q' t' h6).trans h5, hobj q' t' h6⟩
  · intro x y x' y' hxy hxy' he
    by_cases h1 : x = p ∧ y = B p <;> by_cases h2 : x' = p ∧ y' = B p
    · exact ⟨h1.1.trans h2.1.symm, h1.2.trans h2.2.symm⟩
    · obtain ⟨rfl, rfl⟩ := h1
      rw [fwd_moved hc1, (hfw x' y' hxy' h2).1] at he
      exact absurd he.symm (hfw x' y' hxy' h2).2
    · obtain ⟨rfl, rfl⟩ := h2
      rw [fwd_moved hc1, (hfw x y hxy h1).1] at he
      exact absurd he (hfw x y hxy h1).2
    · rw [(hfw x y hxy h1).1, (hfw x' y' hxy' h2).1] at he
      exact e.inj x y x' y' hxy hxy' he
  · intro x y m c hxy hc
    rcases hobj' x y hxy with ⟨rfl, rfl⟩ | h1
    · exact Or.inl ⟨p, B p, hl, fwd_moved hc1⟩
    · rw [hcells x y h1] at hc
      rcases e.objs x y m c h1 hc with ⟨x', y', h2, h3⟩ | h2
      · left
        refine ⟨x', y', h2, ?_⟩
        by_cases hne : x' = p ∧ y' = B p
        · obtain ⟨rfl, rfl⟩ := hne
          rw [fwd_own hcellp] at h3
          cases h3
          exact absurd h1.1 hpu
        · rw [(hfw x' y' h2 hne).1]; exact h3
      · exact Or.inr h2
  · intro x y m k hxy hor hc
    rw [hh']
    rw [show (putObj h1 q t n b).huge = h1.huge from rfl, a.huge]
    exact e.huges x y m k hxy (hor.imp id fun h => ⟨h.1, h.2.1, Nat.le_trans (hBp x) h.2.2⟩) hc
  · obtain ⟨l, h2, h3⟩ := e.calls
    refine ⟨l, ?_, h3.same fun x y hxy hnl => ?_⟩
    · rw [hh']
      show h1.log = _
      rw [a.log, h2]
    · unfold Past
      by_cases hxp : x = p
      · subst hxp
        rw [setNum_same]
        constructor
        · intro h4 h5
          exact (h4 h5).imp (fun h => by omega) id
        · intro h4 h5
          rcases h4 h5 with h6 | h6
          · rcases Nat.lt_trichotomy y (B x) with h7 | h7 | h7
            · exact Or.inl h7
            · subst h7; exact absurd hl hnl
            · have := ho.2.2.no_inside hxy.2.2 hb h7
              omega
          · exact Or.inr h6
      · rw [setNum_ne _ _ hxp]

end

end Verif.Gc
