import Verif.Gc.MarkProof
import Verif.Gc.Evac

/-! # The state in which moving starts -/

namespace Verif.Gc

/-- A reference whose object is among the objects `L`. -/
def Good (h : Heap) (L : Nat → Nat → Prop) : Ref → Prop
  | .val _ => True
  | .bad => True
  | .heap p s => L p s
  | .huge k => ∃ x p s n, h.huge k = some x ∧ x.back = .heap p s ∧ x.body.isTracker = false ∧
      L p s ∧ h.cell p s = some ⟨.own n, .tracker (.huge k)⟩

/-- The objects `L` refer only to each other, and so do the roots. -/
structure Closed (cfg : Cfg) (h : Heap) (L : Nat → Nat → Prop) (R : List Ref) : Prop where
  pages : PagesOk cfg h
  cur : h.cur = none
  obj : ∀ p s, L p s → IsObj h p s
  roots : ∀ r ∈ R, Good h L r
  refs : ∀ p s n b, L p s → h.cell p s = some ⟨.own n, b⟩ → ∀ r ∈ b.refs, Good h L r
  hrefs : ∀ p s n k x, L p s → h.cell p s = some ⟨.own n, .tracker (.huge k)⟩ →
    h.huge k = some x → ∀ r ∈ x.body.refs, Good h L r
  trackers : TrackersOk h
  stores : ∀ p s n q d, L p s → h.cell p s = some ⟨.own n, .bufStore q d⟩ →
    q = cfg.addr (.heap p s) + cfg.off
  hstores : ∀ p s n k x q d, L p s → h.cell p s = some ⟨.own n, .tracker (.huge k)⟩ →
    h.huge k = some x → x.body = .bufStore q d → q = cfg.addr (.huge k) + cfg.off

/-- The marks tell which objects are `L`. -/
structure Marked (h : Heap) (L : Nat → Nat → Prop) : Prop where
  any : ∀ p s, p ∈ h.used → s < h.num p → Tile (h.cell p) 0 s →
    ((h.mark p s).any = true ↔ L p s)
  black : ∀ p s, p ∈ h.used → s < h.num p → (h.mark p s).any = true →
    (h.mark p s).black = true
  start : ∀ p s, p ∈ h.used → h.flag p = false → s < h.num p → (h.mark p s).any = true →
    Tile (h.cell p) 0 s
  full : ∀ p s, p ∈ h.used → h.flag p = true → s < h.num p → (h.mark p s).any = true

/-! ## Heaps which differ only in marks, or in the place of the current page -/

/-- The same objects in the same pages. -/
structure SameHeap (h h' : Heap) : Prop where
  cell : h'.cell = h.cell
  num : h'.num = h.num
  huge : h'.huge = h.huge
  next : h'.next = h.next
  free : h'.free = h.free
  perm : (h'.cur.toList ++ h'.used).Perm (h.cur.toList ++ h.used)

theorem inUse_iff {h : Heap} {p : Nat} : h.inUse p ↔ p ∈ h.cur.toList ++ h.used := by
  unfold Heap.inUse
  rw [List.mem_append, Option.mem_toList]
  exact or_comm

theorem SameHeap.inUse {h h' : Heap} (e : SameHeap h h') (p : Nat) :
    h'.inUse p ↔ h.inUse p := by
  rw [inUse_iff, inUse_iff]; exact e.perm.mem_iff

theorem SameHeap.isObj {h h' : Heap} (e : SameHeap h h') (p s : Nat) :
    IsObj h' p s ↔ IsObj h p s := by
  unfold IsObj
  rw [e.inUse, e.num, e.cell]

theorem SameHeap.bodyAt {h h' : Heap} (e : SameHeap h h') (r : Ref) :
    bodyAt h' r = bodyAt h r := by
  cases r <;> simp only [Gc.bodyAt, e.cell, e.huge]

theorem SameHeap.reach {h h' : Heap} (e : SameHeap h h') {R : List Ref} {r : Ref} :
    Reach h' R r ↔ Reach h R r := by
  constructor
  · intro hr
    induction hr with
    | root hm => exact .root hm
    | step _ hb hm ih => exact .step ih (by rw [← e.bodyAt]; exact hb) hm
  · intro hr
    induction hr with
    | root hm => exact .root hm
    | step _ hb hm ih => exact .step ih (by rw [e.bodyAt]; exact hb) hm

theorem SameHeap.pages {cfg : Cfg} {h h' : Heap} (e : SameHeap h h') (w : PagesOk cfg h) :
    PagesOk cfg h' where
  nodup := by
    rw [e.free]
    exact ((List.Perm.append_right h.free e.perm).nodup_iff).2 w.nodup
  lt := by
    rw [e.free, e.next]
    intro p hp
    exact w.lt p ((List.Perm.append_right h.free e.perm).mem_iff.1 hp)
  free := by rw [e.free, e.num]; exact w.free
  tiled := by
    intro p hp
    rw [e.num, e.cell]
    exact w.tiled p ((e.inUse p).1 hp)

theorem SameHeap.valid {h h' : Heap} (e : SameHeap h h') (r : Ref) :
    Valid h' r ↔ Valid h r := by
  cases r <;> simp only [Valid, e.isObj, e.cell, e.huge]

theorem SameHeap.trackers {h h' : Heap} (e : SameHeap h h') :
    TrackersOk h' ↔ TrackersOk h := by
  simp only [TrackersOk, e.isObj, e.cell, e.huge]

theorem SameHeap.wf {cfg : Cfg} {h h' : Heap} (e : SameHeap h h') {R : List Ref}
    (w : Wf cfg h R) : Wf cfg h' R where
  pages := e.pages w.pages
  valid r hr := (e.valid r).2 (w.valid r (e.reach.1 hr))
  trackers := e.trackers.2 w.trackers
  buffers r d n hr hb b hd := by
    rw [e.bodyAt] at hb hd
    exact w.buffers r d n (e.reach.1 hr) hb b hd
  stores r p d hr hb := by
    rw [e.bodyAt] at hb
    exact w.stores r p d (e.reach.1 hr) hb

theorem pushPage_perm (cfg : Cfg) (h : Heap) (l : List Nat) (p : Nat) :
    (pushPage cfg h l p).Perm (p :: l) := by
  unfold pushPage
  split
  · exact (List.perm_append_singleton p l)
  · exact .refl _

theorem release_same (cfg : Cfg) (h : Heap) : SameHeap h (release cfg h) := by
  unfold release
  split
  · rename_i p hp
    refine ⟨rfl, rfl, rfl, rfl, rfl, ?_⟩
    simp only [pushUsed, hp, Option.toList]
    exact pushPage_perm cfg h h.used p
  · exact ⟨rfl, rfl, rfl, rfl, rfl, .refl _⟩

theorem release_cur (cfg : Cfg) (h : Heap) : (release cfg h).cur = none := by
  unfold release
  split
  · rfl
  · assumption

theorem release_log (cfg : Cfg) (h : Heap) : (release cfg h).log = h.log := by
  unfold release
  split <;> rfl

theorem SameHeap.trans {h h' h'' : Heap} (e : SameHeap h h') (e' : SameHeap h' h'') :
    SameHeap h h'' :=
  ⟨e'.cell.trans e.cell, e'.num.trans e.num, e'.huge.trans e.huge, e'.next.trans e.next,
    e'.free.trans e.free, e'.perm.trans e.perm⟩

theorem clear_same (h : Heap) : SameHeap h (clearMarking h) :=
  ⟨rfl, rfl, rfl, rfl, rfl, .refl _⟩

/-! ## After marking -/

section
variable {cfg : Cfg} {hc : Heap} {R : List Ref}

theorem At.obj (w : Wf cfg hc R) {p s : Nat} (ha : At hc R p s) : IsObj hc p s ∧
    (Reach hc R (.heap p s) ∨ ∃ k x n, Reach hc R (.huge k) ∧ hc.huge k = some x ∧
      x.back = .heap p s ∧ x.body.isTracker = false ∧
      hc.cell p s = some ⟨.own n, .tracker (.huge k)⟩) := by
  rcases ha with h | ⟨k, x, hk, hx, hback⟩
  · exact ⟨w.valid _ h, Or.inl h⟩
  · obtain ⟨x', p', s', n, hx', hback', hxt, ho, hcell⟩ := w.valid _ hk
    rw [hx] at hx'
    cases hx'
    rw [hback] at hback'
    cases hback'
    exact ⟨ho, Or.inr ⟨k, x, n, hk, hx, hback, hxt, hcell⟩⟩

theorem rootActs_kept (i : Inst) (r : Ref) : r ∈ (rootActs i).map Act.ref ↔ r ∈ i.kept := by
  have ht : i.threads.flatMap (fun t => (threadActs t).map Act.ref) =
      i.threads.flatMap threadRefs := by
    congr 1
    funext t
    cases t <;> rfl
  have hcx : i.ctxs.flatMap (fun c => (ctxActs c).map Act.ref) =
      i.ctxs.flatMap ctxRefs := by
    congr 1
    funext c
    have : (Act.ref ∘ Act.black) = id := by funext x; rfl
    simp [ctxActs, ctxRefs, Act.ref, this]
  simp only [rootActs, Inst.kept, List.map_append, List.map_flatMap, ht, hcx, List.map_cons,
    List.map_nil, Act.ref, List.mem_append, List.mem_cons, List.not_mem_nil, or_false]
  generalize i.threads.flatMap threadRefs = A
  generalize i.ctxs.flatMap ctxRefs = B
  grind

theorem rootActs_only (i : Inst) (x : Ref) : Act.only x ∉ rootActs i := by
  have ht : ∀ t, Act.only x ∉ threadActs t := by intro t; cases t <;> simp [threadActs]
  have hcx : ∀ c, Act.only x ∉ ctxActs c := by intro c; simp [ctxActs]
  intro h
  simp only [rootActs, List.mem_append, List.mem_cons, List.mem_flatMap, reduceCtorEq,
    List.not_mem_nil, or_false, false_or] at h
  rcases h with ⟨t, _, h⟩ | ⟨c, _, h⟩
  · exact ht t h
  · exact hcx c h

theorem start_inv (h : Heap) (i : Inst) (n : Nat) :
    MInv (clearMarking h) i.kept (startMark h i n) := by
  have hnone : ∀ p s, p ∈ h.used → (clearMarking h).mark p s = ⟨false, false⟩ := by
    intro p s hp; simp [clearMarking, hp]
  have hacts : ∀ l ∈ (startMark h i n).threads, ∀ a ∈ l, a ∈ rootActs i := by
    intro l hl a ha
    rcases List.mem_cons.1 hl with rfl | hl
    · exact ha
    · rw [(List.mem_replicate.1 hl).2] at ha
      cases ha
  constructor
  · rfl
  · intro r hr; cases hr
  · intro l hl a ha
    have ha := hacts l hl a ha
    refine ⟨.root ((rootActs_kept i _).1 (List.mem_map.2 ⟨a, ha, rfl⟩)), ?_⟩
    rintro x rfl
    exact absurd ha (rootActs_only i x)
  · intro p s hp ha
    rw [show (startMark h i n).h.mark p s = ⟨false, false⟩ from hnone p s hp] at ha
    cases ha
  · intro p s hp ha
    rw [show (startMark h i n).h.mark p s = ⟨false, false⟩ from hnone p s hp] at ha
    cases ha
  · intro p s hp ha
    rw [show (startMark h i n).h.mark p s = ⟨false, false⟩ from hnone p s hp] at ha
    cases ha
  · intro r hr
    obtain ⟨a, ha, rfl⟩ := List.mem_map.1 ((rootActs_kept i r).2 hr)
    exact Or.inl ⟨rootActs i, List.mem_cons_self, a, ha, rfl⟩

/-- The objects with a mark. -/
def Lit (h : Heap) (p s : Nat) : Prop := p ∈ h.used ∧ (h.mark p s).any = true

/-- When marking is done, the marked objects are closed under references. -/
theorem MInv.closed (w : Wf cfg hc R) (hcur : hc.cur = none)
    (hflag : ∀ p ∈ hc.used, hc.flag p = false) {m : Marking}
    (hm : MInv hc R m) (hd : m.isDone = true) :
    Closed cfg m.h (Lit m.h) R ∧ Marked m.h (Lit m.h) := by
  have hbag : m.bag = [] := by
    have := (Bool.and_eq_true_iff.1 hd).1
    simpa using this
  have hth : ∀ l ∈ m.threads, l = [] := by
    have := (Bool.and_eq_true_iff.1 hd).2
    intro l hl
    simpa using List.all_eq_true.1 this l hl
  have hpend : ∀ r, ¬ Pending m r := by
    rintro r ⟨l, hl, a, ha, _⟩
    rw [hth l hl] at ha
    cases ha
  have hblack : ∀ p s, p ∈ hc.used → (m.h.mark p s).any = true →
      (m.h.mark p s).black = true := by
    intro p s hp ha
    rcases Bool.or_eq_true_iff.1 ha with h | h
    · rcases hm.gray p s hp h with h | ⟨r, hr, _⟩ | ⟨l, hl, r, hr, _⟩
      · exact h
      · rw [hbag] at hr; cases hr
      · rw [hth l hl] at hr; cases hr
    · exact h
  have e : SameHeap hc m.h := by
    rw [hm.same]; exact ⟨rfl, rfl, rfl, rfl, rfl, .refl _⟩
  have hused : m.h.used = hc.used := by rw [hm.same]
  have hlit : ∀ p s, Lit m.h p s → At hc R p s := by
    rintro p s ⟨hp, ha⟩
    exact hm.marked p s (hused ▸ hp) ha
  -- a reference that is reachable and seen is good
  have hgood : ∀ r, Reach hc R r → Seen hc m r → Good m.h (Lit m.h) r := by
    intro r hr hs
    have hv := w.valid r hr
    cases r with
    | val v => trivial
    | bad => trivial
    | heap p s =>
      refine ⟨?_, hs p s rfl⟩
      rw [hused]
      rcases hv.1 with h | h
      · exact h
      · rw [hcur] at h; cases h
    | huge k =>
      obtain ⟨x, p, s, n, hx, hback, hxt, ho, hcell⟩ := hv
      refine ⟨x, p, s, n, by rw [e.huge]; exact hx, hback, hxt, ⟨?_, ?_⟩,
        by rw [e.cell]; exact hcell⟩
      · rw [hused]
        rcases ho.1 with h | h
        · exact h
        · rw [hcur] at h; cases h
      · refine hs p s ?_
        obtain ⟨xb, xbody⟩ := x
        simp only at hback
        subst hback
        simp [markLoc, hx, trackerAt, hcell]
  -- the children of a marked object
  have hkids : ∀ p s n b ks, Lit m.h p s → hc.cell p s = some ⟨.own n, b⟩ →
      kidsOf hc b = some ks → ∀ a ∈ ks, Good m.h (Lit m.h) a.ref := by
    intro p s n b ks hl hcell hk a ha
    have hs : Seen hc m a.ref := by
      rcases hm.black p s (hused ▸ hl.1) (hblack p s (hused ▸ hl.1) hl.2) n b ks hcell hk a ha
        with h | h
      · exact absurd h (hpend _)
      · exact h
    refine hgood _ ?_ hs
    rcases (At.obj w (hlit p s hl)).2 with hr | ⟨k, x, n', hr, hx, hback, hxt, hcell'⟩
    · exact (kids_reach w hr (by simp [bodyAt, hcell]) hk a ha).1
    · rw [hcell] at hcell'
      cases hcell'
      have hk' : kidsOf hc (.tracker (.huge k)) = some x.body.kids := by
        simp [kidsOf, hugeKids, hx, hxt]
      rw [hk] at hk'
      cases hk'
      exact (kids_reach w hr (b := x.body) (by simp [bodyAt, hx]) (kidsOf_plain hxt) a ha).1
  have htrack : ∀ p s n k, Lit m.h p s → hc.cell p s = some ⟨.own n, .tracker (.huge k)⟩ →
      Reach hc R (.huge k) := by
    intro p s n k hl hcell
    rcases (At.obj w (hlit p s hl)).2 with hr | ⟨k', x, n', hr, _, _, _, hcell'⟩
    · exact .step hr (by simp [bodyAt, hcell]; rfl) (by simp [Body.refs])
    · rw [hcell] at hcell'
      cases hcell'
      exact hr
  refine ⟨⟨e.pages w.pages, ?_, ?_, ?_, ?_, ?_, e.trackers.2 w.trackers, ?_, ?_⟩, ?_, ?_, ?_, ?_⟩
  · rw [hm.same]; exact hcur
  · intro p s hl
    exact (e.isObj p s).2 (At.obj w (hlit p s hl)).1
  · intro r hr
    refine hgood r (.root hr) ?_
    rcases hm.roots r hr with h | h
    · exact absurd h (hpend _)
    · exact h
  · intro p s n b hl hcell r hr
    rw [e.cell] at hcell
    by_cases ht : b.isTracker = true
    · obtain ⟨o, rfl⟩ := isTracker_iff.1 ht
      simp only [Body.refs, List.mem_singleton] at hr
      subst hr
      rcases w.trackers p s n r (At.obj w (hlit p s hl)).1 hcell with rfl |
        ⟨k, x, rfl, hx, hback, hxt⟩
      · trivial
      · exact ⟨x, p, s, n, by rw [e.huge]; exact hx, hback, hxt, hl,
          by rw [e.cell]; exact hcell⟩
    · have ht : b.isTracker = false := by simpa using ht
      obtain ⟨a, ha, rfl⟩ := List.mem_map.1 ((kids_refs b ht r).2 hr)
      exact hkids p s n b _ hl hcell (kidsOf_plain ht) a ha
  · intro p s n k x hl hcell hx r hr
    rw [e.cell] at hcell
    rw [e.huge] at hx
    obtain ⟨x', _, _, _, hx', _, hxt, _⟩ := w.valid _ (htrack p s n k hl hcell)
    rw [hx] at hx'
    cases hx'
    obtain ⟨a, ha, rfl⟩ := List.mem_map.1 ((kids_refs x.body hxt r).2 hr)
    exact hkids p s n _ x.body.kids hl hcell (by simp [kidsOf, hugeKids, hx, hxt]) a ha
  · intro p s n q d hl hcell
    rw [e.cell] at hcell
    rcases (At.obj w (hlit p s hl)).2 with hr | ⟨k, x, n', _, _, _, _, hcell'⟩
    · exact w.stores (.heap p s) q d hr (by simp [bodyAt, hcell])
    · rw [hcell] at hcell'; cases hcell'
  · intro p s n k x q d hl hcell hx hb
    rw [e.cell] at hcell
    rw [e.huge] at hx
    exact w.stores (.huge k) q d (htrack p s n k hl hcell) (by simp [bodyAt, hx, hb])
  · intro p s hp _ _
    exact ⟨fun h => ⟨hp, h⟩, fun h => h.2⟩
  · intro p s hp _ ha
    exact hblack p s (hused ▸ hp) ha
  · intro p s hp _ _ ha
    rw [e.cell]
    exact (At.obj w (hlit p s ⟨hp, ha⟩)).1.2.2
  · intro p s hp hf
    rw [hused] at hp
    rw [hm.same] at hf
    simp [hflag p hp] at hf

end

end Verif.Gc
