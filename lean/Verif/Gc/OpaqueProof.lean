import Verif.Gc.AllocProof

/-! # Finalizing, counting, and making objects opaque -/

namespace Verif.Gc

/-- The sizes of the objects are the same, so the places of the objects are. -/
theorem Tile.transfer {c d : Nat → Option Obj} {s e : Nat} (h : Tile c s e)
    (hd : ∀ x n b, s ≤ x → x < e → Tile c s x → c x = some ⟨.own n, b⟩ →
      ∃ b', d x = some ⟨.own n, b'⟩) : Tile d s e := by
  induction h with
  | nil => exact .nil _
  | @cons s n e b h1 h2 h3 ih =>
    have hle := h3.le
    obtain ⟨b', hb'⟩ := hd s n b (Nat.le_refl _) (by omega) (.nil _) h1
    exact .cons hb' h2 (ih fun x m c hx hx' ht hc => hd x m c (by omega) hx' (.cons h1 h2 ht) hc)

theorem Tile.back {c d : Nat → Option Obj} {s e x : Nat} (h : Tile c s e)
    (hd : ∀ x n b, s ≤ x → x < e → Tile c s x → c x = some ⟨.own n, b⟩ →
      ∃ b', d x = some ⟨.own n, b'⟩) (hx : Tile d s x) (hxe : x ≤ e) : Tile c s x := by
  induction h with
  | nil s =>
    have := hx.le
    have hxs : x = s := by omega
    subst hxs
    exact .nil _
  | @cons s n e b h1 h2 h3 ih =>
    have hle := h3.le
    obtain ⟨b', hb'⟩ := hd s n b (Nat.le_refl _) (by omega) (.nil _) h1
    cases hx with
    | nil => exact .nil _
    | @cons _ m _ b'' g1 g2 g3 =>
      rw [hb'] at g1
      have hn : n = m := by simpa using (congrArg (Option.map Obj.hdr) g1)
      subst hn
      exact .cons h1 h2
        (ih (fun x m c hx hx' ht hc => hd x m c (by omega) hx' (.cons h1 h2 ht) hc) g3 hxe)

/-- No object starts inside another one. -/
theorem Tile.no_inside {c : Nat → Option Obj} {s x n : Nat} {b : Body} (hs : Tile c 0 s)
    (hx : Tile c 0 x) (hc : c s = some ⟨.own n, b⟩) (hsx : s < x) : s + n ≤ x := by
  obtain ⟨m, b', hm, _, hle, _⟩ := (hs.rest hx (Nat.le_of_lt hsx)).head hsx
  rw [hc] at hm
  cases hm
  exact hle

theorem setCell_same (c : Nat → Nat → Option Obj) (p s : Nat) (o : Option Obj) :
    setCell c p s o p s = o := by simp [setCell]

theorem setCell_ne (c : Nat → Nat → Option Obj) {p s q t : Nat} (o : Option Obj)
    (h : ¬ (q = p ∧ t = s)) : setCell c p s o q t = c q t := by simp only [setCell, if_neg h]

/-- A tracker, if it is one, has a huge object that can be finalized. -/
def Final (h : Heap) (b : Body) : Prop :=
  ∀ r, b = .tracker r → r = .bad ∨ ∃ k y, r = .huge k ∧ h.huge k = some y ∧
    y.body.isTracker = false

/-- A tracker, if it is one, has no object. -/
def Dead (b : Body) : Prop := ∀ r, b = .tracker r → r = .bad

theorem finalBody_dead {r0 : Ref} {b : Body} (ht : b.isTracker = false) :
    Dead (finalBody r0 b).1 := by
  intro r hr
  unfold finalBody at hr
  split at hr
  · cases hr
  · cases hr
  · cases hr
  · simp only at hr
    rw [hr] at ht
    cases ht

/-- The call which object `s` of page `p` is due when it goes away. -/
def Owes (h : Heap) (p s : Nat) (e : Ref × Nat) : Prop :=
  (∃ n b, h.cell p s = some ⟨.own n, b⟩ ∧ b.fin = some e.2 ∧ e.1 = .heap p s) ∨
  ∃ n k x, h.cell p s = some ⟨.own n, .tracker (.huge k)⟩ ∧ h.huge k = some x ∧
    x.body.fin = some e.2 ∧ e.1 = .huge k

/-- What was object `b` has made its call. -/
def Spent (b b' : Body) : Prop := b'.fin = none ∨ (b' = b ∧ b.isModule = true)

theorem finalBody_spent (r0 : Ref) (b : Body) : Spent b (finalBody r0 b).1 := by
  unfold finalBody
  split
  · exact Or.inl rfl
  · exact Or.inl rfl
  · exact Or.inr ⟨rfl, rfl⟩
  · rename_i h1 h2 h3
    left
    cases b with
    | object a c f =>
      cases f with
      | none => rfl
      | some f => exact absurd rfl (h1 _ _ _)
    | bufExt a f =>
      cases f with
      | none => rfl
      | some f => exact absurd rfl (h2 _ _)
    | module a b c d e g i f m =>
      cases f with
      | none => rfl
      | some f => exact absurd rfl (h3 _ _ _ _ _ _ _ _ _)
    | _ => rfl

theorem finalBody_log (r0 : Ref) (b : Body) : (finalBody r0 b).2.Nodup ∧
    ∀ e, e ∈ (finalBody r0 b).2 ↔ b.fin = some e.2 ∧ e.1 = r0 := by
  have hone : ∀ f : Nat, ([(r0, f)] : List (Ref × Nat)).Nodup ∧
      ∀ e, e ∈ [(r0, f)] ↔ some f = some e.2 ∧ e.1 = r0 := by
    intro f
    refine ⟨by simp, fun e => ?_⟩
    obtain ⟨a, b⟩ := e
    simp only [List.mem_singleton, Prod.mk.injEq, Option.some.injEq]
    constructor
    · rintro ⟨rfl, rfl⟩; exact ⟨rfl, rfl⟩
    · rintro ⟨rfl, rfl⟩; exact ⟨rfl, rfl⟩
  have hnone : ([] : List (Ref × Nat)).Nodup ∧
      ∀ e : Ref × Nat, e ∈ ([] : List (Ref × Nat)) ↔ (none : Option Nat) = some e.2 ∧ e.1 = r0 := by
    refine ⟨by simp, fun e => by simp⟩
  cases b with
  | object a c f => cases f <;> first | exact hnone | exact hone _
  | bufExt a f => cases f <;> first | exact hnone | exact hone _
  | module a b c d e g i f m => cases f <;> first | exact hnone | exact hone _
  | _ => exact hnone

theorem Body.fin_tracker {b : Body} (h : b.isTracker = true) : b.fin = none := by
  cases b <;> first | rfl | cases h

/-- What `finalize_object` changes. -/
structure Finalized (h h' : Heap) (p s n : Nat) (b : Body) : Prop where
  num : h'.num = h.num
  flag : h'.flag = h.flag
  mark : h'.mark = h.mark
  used : h'.used = h.used
  free : h'.free = h.free
  cur : h'.cur = h.cur
  next : h'.next = h.next
  cell : ∀ q t, ¬ (q = p ∧ t = s) → h'.cell q t = h.cell q t
  here : ∃ b', h'.cell p s = some ⟨.own n, b'⟩ ∧ Dead b' ∧ Spent b b'
  huge : ∀ k, b ≠ .tracker (.huge k) → h'.huge k = h.huge k
  log : ∃ l, h'.log = h.log ++ l ∧ l.Nodup ∧ ∀ e, e ∈ l ↔ Owes h p s e

theorem finalize_plain {h : Heap} {p s n : Nat} {b : Body}
    (hc : h.cell p s = some ⟨.own n, b⟩) (ht : b.isTracker = false) :
    finalize h p s = some { h with
      log := h.log ++ (finalBody (.heap p s) b).2
      cell := setCell h.cell p s (some ⟨.own n, (finalBody (.heap p s) b).1⟩) } := by
  unfold finalize
  rw [hc]
  cases b <;> first | rfl | simp [Body.isTracker] at ht

theorem finalize_spec {h : Heap} {p s n : Nat} {b : Body}
    (hc : h.cell p s = some ⟨.own n, b⟩) (hf : Final h b) :
    ∃ h', finalize h p s = some h' ∧ Finalized h h' p s n b := by
  by_cases ht : b.isTracker = true
  · obtain ⟨r, rfl⟩ := isTracker_iff.1 ht
    rcases hf r rfl with rfl | ⟨k, y, rfl, hy, hyt⟩
    · refine ⟨h, by simp [finalize, hc], rfl, rfl, rfl, rfl, rfl, rfl, rfl, fun _ _ _ => rfl,
        ⟨_, hc, ?_, Or.inl rfl⟩, fun _ _ => rfl, [], by simp, by simp, ?_⟩
      · intro r hr
        cases hr
        rfl
      · rintro e
        simp only [List.not_mem_nil, false_iff]
        rintro (⟨m, c, h1, h2, _⟩ | ⟨m, k, x, h1, _⟩)
        · rw [hc] at h1
          cases h1
          cases h2
        · rw [hc] at h1
          cases h1
    · refine ⟨{ h with
        huge := fun j => if j = k then none else h.huge j
        log := h.log ++ (finalBody (.huge k) y.body).2
        cell := setCell h.cell p s (some ⟨.own n, .tracker .bad⟩) }, ?_,
        rfl, rfl, rfl, rfl, rfl, rfl, rfl, ?_, ?_, ?_, _, rfl, (finalBody_log _ _).1, ?_⟩
      · simp [finalize, hc, finalHuge, hy, hyt]
      · intro q t hqt; exact setCell_ne _ _ hqt
      · refine ⟨_, setCell_same _ _ _ _, ?_, Or.inl rfl⟩
        intro r hr
        cases hr
        rfl
      · intro j hj
        simp only
        rw [if_neg]
        rintro rfl
        exact hj rfl
      · intro e
        rw [(finalBody_log _ _).2]
        constructor
        · rintro ⟨h1, h2⟩
          exact Or.inr ⟨n, k, y, hc, hy, h1, h2⟩
        · rintro (⟨m, c, h1, h2, _⟩ | ⟨m, k', x, h1, h2, h3, h4⟩)
          · rw [hc] at h1
            cases h1
            cases h2
          · rw [hc] at h1
            cases h1
            rw [hy] at h2
            cases h2
            exact ⟨h3, h4⟩
  · have ht : b.isTracker = false := by simpa using ht
    exact ⟨_, finalize_plain hc ht, rfl, rfl, rfl, rfl, rfl, rfl, rfl,
      fun q t hqt => setCell_ne _ _ hqt,
      ⟨_, setCell_same _ _ _ _, finalBody_dead ht, finalBody_spent _ _⟩,
      fun _ _ => rfl, _, rfl, (finalBody_log _ _).1, fun e => by
        rw [(finalBody_log _ _).2]
        constructor
        · rintro ⟨h1, h2⟩
          exact Or.inl ⟨n, b, hc, h1, h2⟩
        · rintro (⟨m, c, h1, h2, h3⟩ | ⟨m, k', x, h1, h2, h3, h4⟩)
          · rw [hc] at h1
            cases h1
            exact ⟨h2, h3⟩
          · rw [hc] at h1
            cases h1
            cases ht⟩

/-! ## Counting -/

section
variable {cfg : Cfg} {h0 : Heap} {L : Nat → Nat → Prop} {R : List Ref}

/-- The count of used slots exists; when it is all of them, there is no dead object. -/
theorem slotsUsed_spec (c0 : Closed cfg h0 L R) (m0 : Marked h0 L) {h : Heap} {p : Nat}
    (hp : p ∈ h0.used) (hfl : h0.flag p = false)
    (hcell : ∀ s, s < h0.num p → h.cell p s = h0.cell p s) (hmark : ∀ s, h.mark p s = h0.mark p s) :
    ∀ (f s : Nat), h0.num p - s ≤ f → s ≤ h0.num p →
      ∃ u, slotsUsed h p (h0.num p) f s = some u ∧ u ≤ h0.num p - s ∧
        (u = h0.num p - s → ∀ x, s ≤ x → x < h0.num p → Tile (h0.cell p) 0 x → L p x)
  | 0, s, hf, hs => by
    refine ⟨0, ?_, by omega, fun _ x hx hx' => absurd hx' (by omega)⟩
    unfold slotsUsed
    rw [if_neg (by omega)]
  | f + 1, s, hf, hs => by
    unfold slotsUsed
    by_cases hse : s < h0.num p
    · simp only [if_pos hse, hmark]
      by_cases hm : (h0.mark p s).any = true
      · have ht := m0.start p s hp hfl hse hm
        obtain ⟨n, b, hb, hn, hle, _⟩ := c0.pages.obj ⟨Or.inl hp, hse, ht⟩
        have hsz : sizeAt h p s = some n := by simp [sizeAt, hcell s hse, hb]
        simp only [if_pos hm, hsz, if_pos (And.intro (m0.black p s hp hse hm) hle)]
        obtain ⟨u, hu, hule, hall⟩ := slotsUsed_spec c0 m0 hp hfl hcell hmark f (s + n)
          (by omega) hle
        refine ⟨n + u, by simp [hu], by omega, ?_⟩
        intro he x hx hx' htx
        rcases Nat.lt_or_ge x (s + n) with hlt | hge
        · rcases Nat.eq_or_lt_of_le hx with rfl | hlt'
          · exact (m0.any p s hp hse ht).1 hm
          · have := ht.no_inside htx hb hlt'
            omega
        · exact hall (by omega) x hge hx' htx
      · simp only [if_neg hm]
        obtain ⟨u, hu, hule, _⟩ := slotsUsed_spec c0 m0 hp hfl hcell hmark f (s + 1)
          (by omega) hse
        exact ⟨u, hu, by omega, fun he => absurd he (by omega)⟩
    · simp only [if_neg hse]
      exact ⟨0, rfl, by omega, fun _ x hx hx' => absurd hx' (by omega)⟩

/-! ## Making objects opaque -/

/-- The objects of page `p` from slot `s` on, before; those before slot `c` which are not to be
kept have been finalized. -/
def OPre (h0 : Heap) (L : Nat → Nat → Prop) (h : Heap) (p c s : Nat) : Prop :=
  ∀ x n b, s ≤ x → x < h0.num p → Tile (h0.cell p) 0 x → h0.cell p x = some ⟨.own n, b⟩ →
    (L p x → h.cell p x = some ⟨.own n, b⟩ ∨ ∃ q t b' b'',
      h.cell p x = some ⟨.moved q t, b'⟩ ∧ q ≠ p ∧ h.cell q t = some ⟨.own n, b''⟩) ∧
    (¬ L p x → ∃ b', h.cell p x = some ⟨.own n, b'⟩ ∧
      ((c ≤ x ∧ b' = b ∧ ∀ k, b = .tracker (.huge k) → h.huge k = h0.huge k) ∨
        (x < c ∧ Dead b' ∧ Spent b b')))

/-- No module which is not to be kept has a finalizer. -/
def NoMod (h : Heap) (L : Nat → Nat → Prop) : Prop :=
  ∀ p s n b, IsObj h p s → ¬ L p s → h.cell p s = some ⟨.own n, b⟩ → b.isModule = true →
    b.fin = none

/-- An object whose call is known is known. -/
theorem Owes.uniq {h : Heap} (ht : TrackersOk h) {p s p' s' : Nat} {e : Ref × Nat}
    (o : Owes h p s e) (o' : Owes h p' s' e) (ho : IsObj h p s) (ho' : IsObj h p' s') :
    p = p' ∧ s = s' := by
  rcases o with ⟨n, b, h1, h2, h3⟩ | ⟨n, k, x, h1, h2, h3, h4⟩ <;>
    rcases o' with ⟨n', b', g1, g2, g3⟩ | ⟨n', k', x', g1, g2, g3, g4⟩
  · rw [h3] at g3; cases g3; exact ⟨rfl, rfl⟩
  · rw [h3] at g4; cases g4
  · rw [h4] at g3; cases g3
  · rw [h4] at g4
    cases g4
    rcases ht p s n _ ho h1 with e1 | ⟨k1, y1, e1, f1, i1, _⟩
    · cases e1
    rcases ht p' s' n' _ ho' g1 with e2 | ⟨k2, y2, e2, f2, i2, _⟩
    · cases e2
    cases e1
    cases e2
    rw [f1] at f2
    cases f2
    rw [i1] at i2
    injection i2 with j1 j2
    exact ⟨j1, j2⟩

/-- The objects of page `p` from slot `s` on, afterwards. -/
structure OPost (h0 : Heap) (L : Nat → Nat → Prop) (h h' : Heap) (p c s : Nat) : Prop where
  num : h'.num = h.num
  flag : h'.flag = h.flag
  mark : h'.mark = h.mark
  used : h'.used = h.used
  free : h'.free = h.free
  cur : h'.cur = h.cur
  next : h'.next = h.next
  other : ∀ q t, q ≠ p → h'.cell q t = h.cell q t
  before : ∀ x, x < s → h'.cell p x = h.cell p x
  live : ∀ x, L p x → h'.cell p x = h.cell p x
  dead : ∀ x n b, s ≤ x → x < h0.num p → Tile (h0.cell p) 0 x →
    h0.cell p x = some ⟨.own n, b⟩ → ¬ L p x → h'.cell p x = some ⟨.own n, .opaque 0⟩
  huge : ∀ k, (∀ x n, s ≤ x → x < h0.num p → Tile (h0.cell p) 0 x → ¬ L p x →
    h0.cell p x ≠ some ⟨.own n, .tracker (.huge k)⟩) → h'.huge k = h.huge k
  log : ∃ l, h'.log = h.log ++ l ∧
    (∀ e ∈ l, ∃ x, s ≤ x ∧ x < h0.num p ∧ Tile (h0.cell p) 0 x ∧ ¬ L p x ∧ Owes h0 p x e) ∧
    (∀ x e, s ≤ x → c ≤ x → x < h0.num p → Tile (h0.cell p) 0 x → ¬ L p x → Owes h0 p x e →
      e ∈ l) ∧
    (NoMod h0 L → l.Nodup ∧ ∀ e ∈ l, ∃ x, s ≤ x ∧ c ≤ x ∧ x < h0.num p ∧
      Tile (h0.cell p) 0 x ∧ ¬ L p x ∧ Owes h0 p x e)

theorem opaque_spec (c0 : Closed cfg h0 L R) (m0 : Marked h0 L) {p c : Nat}
    (hp : p ∈ h0.used) :
    ∀ (f : Nat) (h : Heap) (s : Nat), h0.num p - s ≤ f → s ≤ h0.num p →
      Tile (h0.cell p) 0 s → (∀ x, h.mark p x = h0.mark p x) → OPre h0 L h p c s →
      ∃ h', opaqueObjs h p (h0.num p) f s = some h' ∧ OPost h0 L h h' p c s
  | 0, h, s, hf, hs, _, _, _ => by
    refine ⟨h, ?_, rfl, rfl, rfl, rfl, rfl, rfl, rfl, fun _ _ _ => rfl, fun _ _ => rfl,
      fun _ _ => rfl, fun x n b hx hx' => absurd hx' (by omega), fun _ _ => rfl, [], by simp,
      by simp, fun x e hx _ hx' => absurd hx' (by omega), by simp⟩
    unfold opaqueObjs
    rw [if_neg (by omega)]
  | f + 1, h, s, hf, hs, ht, hmark, hpre => by
    unfold opaqueObjs
    by_cases hse : s < h0.num p
    · obtain ⟨n, b, hb, hn, hle, _⟩ := c0.pages.obj ⟨Or.inl hp, hse, ht⟩
      have ht' : Tile (h0.cell p) 0 (s + n) := ht.trans (.cons hb hn (.nil _))
      have hchk : ¬ (n = 0 ∨ h0.num p < s + n) := by omega
      have hstarts : ∀ x, s ≤ x → Tile (h0.cell p) 0 x → x = s ∨ s + n ≤ x := by
        intro x hx htx
        rcases Nat.eq_or_lt_of_le hx with rfl | hlt
        · exact Or.inl rfl
        · exact Or.inr (ht.no_inside htx hb hlt)
      obtain ⟨hL, hD⟩ := hpre s n b (Nat.le_refl _) hse ht hb
      simp only [if_pos hse]
      by_cases hls : L p s
      · have hany : (h.mark p s).any = true := by
          rw [hmark]; exact (m0.any p s hp hse ht).2 hls
        have hblk : (h.mark p s).black = true := by
          rw [hmark]
          exact m0.black p s hp hse ((m0.any p s hp hse ht).2 hls)
        have hsz : sizeVia h p s = some n := by
          rcases hL hls with h' | ⟨q, t, b', b'', h', _, h''⟩
          · simp [sizeVia, h']
          · simp [sizeVia, h', sizeAt, h'']
        simp only [hsz, if_neg hchk, if_pos hany, if_pos hblk]
        obtain ⟨h', hh', post⟩ := opaque_spec c0 m0 hp f h (s + n) (by omega) hle ht' hmark
          (fun x m c hx hx' htx hc => hpre x m c (by omega) hx' htx hc)
        refine ⟨h', hh', post.num, post.flag, post.mark, post.used, post.free, post.cur,
          post.next, post.other, fun x hx => post.before x (by omega), post.live, ?_, ?_, ?_⟩
        · intro x m c hx hx' htx hc hnl
          rcases hstarts x hx htx with rfl | hge
          · exact absurd hls hnl
          · exact post.dead x m c hge hx' htx hc hnl
        · intro k hk
          exact post.huge k fun x m hx hx' htx hnl => hk x m (by omega) hx' htx hnl
        · obtain ⟨l, l1, l2, l3, l4⟩ := post.log
          refine ⟨l, l1, ?_, ?_, ?_⟩
          · intro e he
            obtain ⟨x, h1, h2⟩ := l2 e he
            exact ⟨x, by omega, h2⟩
          · intro x e hx hcx hx' htx hnl
            rcases hstarts x hx htx with rfl | hge
            · exact absurd hls hnl
            · exact l3 x e hge hcx hx' htx hnl
          · intro hnm
            refine ⟨(l4 hnm).1, fun e he => ?_⟩
            obtain ⟨x, h1, h2⟩ := (l4 hnm).2 e he
            exact ⟨x, by omega, h2⟩
      · have hany : ¬ (h.mark p s).any = true := by
          rw [hmark, m0.any p s hp hse ht]; exact hls
        obtain ⟨b', hb', hfin⟩ := hD hls
        have hsz : sizeVia h p s = some n := by simp [sizeVia, hb']
        have hF : Final h b' := by
          rcases hfin with ⟨_, rfl, hk⟩ | ⟨_, hd, _⟩
          · rintro r rfl
            rcases c0.trackers p s n r ⟨Or.inl hp, hse, ht⟩ hb with rfl | ⟨k, x, rfl, hx, _, hxt⟩
            · exact Or.inl rfl
            · exact Or.inr ⟨k, x, rfl, by rw [hk k rfl]; exact hx, hxt⟩
          · intro r hr
            exact Or.inl (hd r hr)
        obtain ⟨h1, hh1, fin⟩ := finalize_spec hb' hF
        simp only [hsz, if_neg hchk, if_neg hany, hh1]
        have hopq : ∀ q t, ¬ (q = p ∧ t = s) →
            (setOpaque h1 p s n).cell q t = h.cell q t := by
          intro q t hqt
          rw [show (setOpaque h1 p s n).cell q t = setCell h1.cell p s _ q t from rfl,
            setCell_ne _ _ hqt, fin.cell q t hqt]
        have hhere : (setOpaque h1 p s n).cell p s = some ⟨.own n, .opaque 0⟩ :=
          setCell_same _ _ _ _
        obtain ⟨h', hh', post⟩ := opaque_spec c0 m0 hp f (setOpaque h1 p s n) (s + n)
          (by omega) hle ht'
          (fun x => by
            rw [show (setOpaque h1 p s n).mark = h1.mark from rfl, fin.mark]; exact hmark x)
          (by
            intro x m c hx hx' htx hc
            obtain ⟨hL', hD'⟩ := hpre x m c (by omega) hx' htx hc
            have hxs : ¬ (p = p ∧ x = s) := by omega
            rw [hopq p x hxs]
            constructor
            · intro hlx
              rcases hL' hlx with h' | ⟨q, t, c1, c2, e1, e2, e3⟩
              · exact Or.inl h'
              · exact Or.inr ⟨q, t, c1, c2, e1, e2, by rw [hopq q t (by omega)]; exact e3⟩
            · intro hnl
              obtain ⟨c', hc', hk⟩ := hD' hnl
              refine ⟨c', hc', ?_⟩
              rcases hk with ⟨hcx, rfl, hk⟩ | hk
              · left
                refine ⟨hcx, rfl, ?_⟩
                rintro k rfl
                rw [show (setOpaque h1 p s n).huge = h1.huge from rfl, fin.huge k ?_]
                · exact hk k rfl
                · rintro rfl
                  -- two trackers of one object
                  rcases hfin with ⟨_, rfl, _⟩ | ⟨_, hd, _⟩
                  · have e1 := c0.trackers p s n _ ⟨Or.inl hp, hse, ht⟩ hb
                    have e2 := c0.trackers p x m _ ⟨Or.inl hp, hx', htx⟩ hc
                    rcases e1 with e1 | ⟨k1, y1, e1, f1, g1, _⟩
                    · cases e1
                    rcases e2 with e2 | ⟨k2, y2, e2, f2, g2, _⟩
                    · cases e2
                    cases e1
                    cases e2
                    rw [f1] at f2
                    cases f2
                    rw [g1] at g2
                    have : s = x := by injection g2
                    omega
                  · have := hd _ rfl
                    cases this
              · exact Or.inr hk)
        refine ⟨h', hh', ?_, ?_, ?_, ?_, ?_, ?_, ?_, ?_, ?_, ?_, ?_, ?_, ?_⟩
        · rw [post.num]; exact fin.num
        · rw [post.flag]; exact fin.flag
        · rw [post.mark]; exact fin.mark
        · rw [post.used]; exact fin.used
        · rw [post.free]; exact fin.free
        · rw [post.cur]; exact fin.cur
        · rw [post.next]; exact fin.next
        · intro q t hq
          rw [post.other q t hq, hopq q t (by omega)]
        · intro x hx
          rw [post.before x (by omega), hopq p x (by omega)]
        · intro x hx
          rw [post.live x hx, hopq p x ?_]
          rintro ⟨_, rfl⟩
          exact hls hx
        · intro x m c hx hx' htx hc hnl
          rcases hstarts x hx htx with rfl | hge
          · rw [post.before x (by omega), hhere]
            rw [hb] at hc
            cases hc
            rfl
          · exact post.dead x m c hge hx' htx hc hnl
        · intro k hk
          rw [post.huge k fun x m hx hx' htx hnl => hk x m (by omega) hx' htx hnl]
          rw [show (setOpaque h1 p s n).huge = h1.huge from rfl]
          refine fin.huge k ?_
          rintro rfl
          rcases hfin with ⟨_, rfl, _⟩ | ⟨_, hd, _⟩
          · exact hk s n (Nat.le_refl _) hse ht hls hb
          · have := hd _ rfl
            cases this
        · obtain ⟨l, l1, l2, l3, l4⟩ := post.log
          obtain ⟨g, g1, g2, g3⟩ := fin.log
          have hof : ∀ e, Owes h p s e → Owes h0 p s e := by
            rintro e (⟨m, d, h1, h2, h3⟩ | ⟨m, k, x, h1, h2, h3, h4⟩)
            · rw [hb'] at h1
              cases h1
              rcases hfin with ⟨_, rfl, _⟩ | ⟨_, _, h5 | ⟨rfl, _⟩⟩
              · exact Or.inl ⟨n, _, hb, h2, h3⟩
              · rw [h5] at h2; cases h2
              · exact Or.inl ⟨n, _, hb, h2, h3⟩
            · rw [hb'] at h1
              cases h1
              rcases hfin with ⟨_, rfl, hk⟩ | ⟨_, hd, _⟩
              · exact Or.inr ⟨n, k, x, hb, by rw [← hk k rfl]; exact h2, h3, h4⟩
              · have := hd _ rfl; cases this
          have hto : ∀ e, c ≤ s → Owes h0 p s e → Owes h p s e := by
            intro e hcs ho
            rcases hfin with ⟨_, rfl, hk⟩ | ⟨h5, _⟩
            · rcases ho with ⟨m, d, h1, h2, h3⟩ | ⟨m, k, x, h1, h2, h3, h4⟩
              · rw [hb] at h1
                cases h1
                exact Or.inl ⟨n, _, hb', h2, h3⟩
              · rw [hb] at h1
                cases h1
                exact Or.inr ⟨n, k, x, hb', by rw [hk k rfl]; exact h2, h3, h4⟩
            · omega
          have hnew : ∀ e, NoMod h0 L → Owes h p s e → c ≤ s := by
            intro e hnm ho
            rcases hfin with ⟨h5, _⟩ | ⟨_, hd, h6⟩
            · exact h5
            · exfalso
              rcases ho with ⟨m, d, h1, h2, h3⟩ | ⟨m, k, x, h1, _⟩
              · rw [hb'] at h1
                cases h1
                rcases h6 with h6 | ⟨rfl, h6⟩
                · rw [h6] at h2; cases h2
                · rw [hnm p s n _ ⟨Or.inl hp, hse, ht⟩ hls hb h6] at h2
                  cases h2
              · rw [hb'] at h1
                cases h1
                have := hd _ rfl
                cases this
          refine ⟨g ++ l, ?_, ?_, ?_, ?_⟩
          · rw [l1, show (setOpaque h1 p s n).log = h1.log from rfl, g1, List.append_assoc]
          · intro e he
            rcases List.mem_append.1 he with h1 | h1
            · exact ⟨s, Nat.le_refl _, hse, ht, hls, hof e ((g3 e).1 h1)⟩
            · obtain ⟨x, h2, h3⟩ := l2 e h1
              exact ⟨x, by omega, h3⟩
          · intro x e hx hcx hx' htx hnl ho
            rcases hstarts x hx htx with rfl | hge
            · exact List.mem_append.2 (Or.inl ((g3 e).2 (hto e hcx ho)))
            · exact List.mem_append.2 (Or.inr (l3 x e hge hcx hx' htx hnl ho))
          · intro hnm
            refine ⟨List.nodup_append.2 ⟨g2, (l4 hnm).1, ?_⟩, ?_⟩
            · rintro a ha b hb rfl
              obtain ⟨x, h2, h3, h4, h5, h6⟩ := l2 a hb
              have := (hof a ((g3 a).1 ha)).uniq c0.trackers h6 ⟨Or.inl hp, hse, ht⟩
                ⟨Or.inl hp, h3, h4⟩
              omega
            · intro e he
              rcases List.mem_append.1 he with h1 | h1
              · have h2 := (g3 e).1 h1
                exact ⟨s, Nat.le_refl _, hnew e hnm h2, hse, ht, hls, hof e h2⟩
              · obtain ⟨x, h2, h3⟩ := (l4 hnm).2 e h1
                exact ⟨x, by omega, h3⟩
    · simp only [if_neg hse]
      exact ⟨h, rfl, rfl, rfl, rfl, rfl, rfl, rfl, rfl, fun _ _ _ => rfl, fun _ _ => rfl,
        fun _ _ => rfl, fun x n b hx hx' => absurd hx' (by omega), fun _ _ => rfl, [], by simp,
        by simp, fun x e hx _ hx' => absurd hx' (by omega), by simp⟩

end

end Verif.Gc
