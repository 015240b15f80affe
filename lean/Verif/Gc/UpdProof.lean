import Verif.Gc.EvacLoop

/-! # Updating references -/

namespace Verif.Gc

/-! ## Bodies -/

/-- The object as it is after all its references were updated. -/
def Body.moved (cfg : Cfg) (f : Ref → Ref) (self : Ref) : Body → Body
  | .strRef r p d => .strRef (f r) (p + (cfg.addr (f r) - cfg.addr r)) d
  | .bufStore _ d => .bufStore (cfg.addr self + cfg.off) d
  | b => b.map f

theorem mapM_eq {F : Ref → Option Ref} {f : Ref → Ref} :
    ∀ {l : List Ref}, (∀ r ∈ l, F r = some (f r)) → l.mapM F = some (l.map f)
  | [], _ => rfl
  | r :: l, h => by
    rw [List.mapM_cons, h r List.mem_cons_self,
      mapM_eq fun x hx => h x (List.mem_cons_of_mem _ hx)]
    rfl

theorem mapM_pairs {F : Ref → Option Ref} {f : Ref → Ref} :
    ∀ {l : List (Ref × Ref)}, (∀ r ∈ l.flatMap fun kv => [kv.1, kv.2], F r = some (f r)) →
      l.mapM (updPair F) = some (l.map fun kv => (f kv.1, f kv.2))
  | [], _ => rfl
  | kv :: l, h => by
    have h1 := h kv.1 (by simp)
    have h2 := h kv.2 (by simp)
    rw [List.mapM_cons, mapM_pairs fun x hx => h x (by
      rw [List.flatMap_cons]; exact List.mem_append.2 (Or.inr hx))]
    simp [updPair, h1, h2]

theorem upd_eq {cfg : Cfg} {F : Ref → Option Ref} {f : Ref → Ref} {b : Body} (self : Ref)
    (ht : b.isTracker = false) (h : ∀ r ∈ b.refs, F r = some (f r)) :
    b.upd cfg F self = some (b.moved cfg f self) := by
  cases b with
  | tracker => simp [Body.isTracker] at ht
  | objStore items nt d =>
    simp only [Body.refs, List.mem_append] at h
    simp [Body.upd, Body.moved, Body.map, mapM_pairs fun r hr => h r (Or.inl hr),
      h nt (Or.inr (by simp))]
  | arrStore buf nx d =>
    simp only [Body.refs, List.mem_append] at h
    simp [Body.upd, Body.moved, Body.map, mapM_eq fun r hr => h r (Or.inl hr),
      h nx (Or.inr (by simp))]
  | stack buf d =>
    simp only [Body.refs] at h
    simp [Body.upd, Body.moved, Body.map, mapM_eq h]
  | _ =>
    simp only [Body.refs, List.mem_cons, List.not_mem_nil, or_false, forall_eq_or_imp,
      forall_eq] at h
    simp [Body.upd, Body.moved, Body.map, h]

theorem moved_refs (cfg : Cfg) (f : Ref → Ref) (self : Ref) (b : Body) :
    (b.moved cfg f self).refs = b.refs.map f := by
  cases b with
  | objStore items nt d =>
    simp [Body.moved, Body.map, Body.refs, List.flatMap_map, List.map_flatMap]
  | _ => simp [Body.moved, Body.map, Body.refs]

theorem moved_tracker (cfg : Cfg) (f : Ref → Ref) (self : Ref) (b : Body) :
    (b.moved cfg f self).isTracker = b.isTracker := by
  cases b <;> rfl

theorem moved_opaque (cfg : Cfg) (f : Ref → Ref) (self : Ref) (d : Nat) :
    (Body.opaque d).moved cfg f self = .opaque d := rfl

theorem moved_store {cfg : Cfg} {f : Ref → Ref} {self : Ref} {b : Body} {q : Int} {d : Nat}
    (h : b.moved cfg f self = .bufStore q d) : q = cfg.addr self + cfg.off := by
  cases b <;> simp [Body.moved, Body.map] at h
  exact h.1.symm

theorem moved_same {cfg : Cfg} {f : Ref → Ref} {self self' : Ref} {b : Body}
    (hs : ∀ q d, b = .bufStore q d → q = cfg.addr self + cfg.off) :
    SameBody cfg.addr f self self' b (b.moved cfg f self') := by
  cases b with
  | strRef r p d => exact ⟨_, rfl, by omega⟩
  | bufStore q d =>
    refine ⟨_, rfl, ?_⟩
    rw [hs q d rfl]
    omega
  | _ => rfl

/-! ## Objects -/

/-- The objects `D` can be updated. -/
structure Ready (g : Heap) (f : Ref → Ref) (D : Nat → Nat → Prop) : Prop where
  own : ∀ x y, D x y → ∃ n b, g.cell x y = some ⟨.own n, b⟩ ∧ 0 < n
  refs : ∀ x y n b, D x y → g.cell x y = some ⟨.own n, b⟩ → b.isTracker = false →
    ∀ r ∈ b.refs, updRef g r = some (f r)
  track : ∀ x y n r, D x y → g.cell x y = some ⟨.own n, .tracker r⟩ →
    r = .bad ∨ ∃ k X, r = .huge k ∧ g.huge k = some X ∧ X.body.isTracker = false ∧
      ∀ r ∈ X.body.refs, updRef g r = some (f r)
  uniq : ∀ x y n x' y' n' k, D x y → g.cell x y = some ⟨.own n, .tracker (.huge k)⟩ →
    D x' y' → g.cell x' y' = some ⟨.own n', .tracker (.huge k)⟩ → x = x' ∧ y = y'

/-- An object after the update. -/
def updated (cfg : Cfg) (f : Ref → Ref) (x y : Nat) (o : Obj) : Obj :=
  ⟨o.hdr, if o.body.isTracker then o.body else o.body.moved cfg f (.heap x y)⟩

/-- The objects `P` have been updated. -/
structure UInv (cfg : Cfg) (g : Heap) (f : Ref → Ref) (h : Heap) (P : Nat → Nat → Prop) :
    Prop where
  num : h.num = g.num
  flag : h.flag = g.flag
  mark : h.mark = g.mark
  used : h.used = g.used
  free : h.free = g.free
  cur : h.cur = g.cur
  next : h.next = g.next
  log : h.log = g.log
  cell : ∀ x y, P x y → h.cell x y = (g.cell x y).map (updated cfg f x y)
  other : ∀ x y, ¬ P x y → h.cell x y = g.cell x y
  huge : ∀ x y n k X, P x y → g.cell x y = some ⟨.own n, .tracker (.huge k)⟩ →
    g.huge k = some X → h.huge k = some ⟨.heap x y, X.body.moved cfg f (.huge k)⟩
  hother : ∀ k, (∀ x y n, P x y → g.cell x y ≠ some ⟨.own n, .tracker (.huge k)⟩) →
    h.huge k = g.huge k

section
variable {cfg : Cfg} {g h : Heap} {f : Ref → Ref} {P D : Nat → Nat → Prop}

theorem UInv.start : UInv cfg g f g (fun _ _ => False) :=
  ⟨rfl, rfl, rfl, rfl, rfl, rfl, rfl, rfl, fun _ _ h => absurd h id, fun _ _ _ => rfl,
    fun _ _ _ _ _ h => absurd h id, fun _ _ => rfl⟩

theorem UInv.congr {P' : Nat → Nat → Prop} (u : UInv cfg g f h P)
    (hp : ∀ x y, P' x y ↔ P x y) : UInv cfg g f h P' :=
  ⟨u.num, u.flag, u.mark, u.used, u.free, u.cur, u.next, u.log, fun x y hx => u.cell x y ((hp x y).1 hx),
    fun x y hx => u.other x y fun h => hx ((hp x y).2 h),
    fun x y n k X hx => u.huge x y n k X ((hp x y).1 hx),
    fun k hk => u.hother k fun x y n hx => hk x y n ((hp x y).2 hx)⟩

/-- Headers do not change. -/
theorem UInv.hdr (u : UInv cfg g f h P) (x y : Nat) :
    (h.cell x y).map Obj.hdr = (g.cell x y).map Obj.hdr := by
  by_cases hp : P x y
  · rw [u.cell x y hp]
    cases g.cell x y <;> rfl
  · rw [u.other x y hp]

theorem UInv.updRef (u : UInv cfg g f h P) : Gc.updRef h = Gc.updRef g := by
  funext r
  cases r with
  | heap p s =>
    have := u.hdr p s
    simp only [Gc.updRef]
    cases h1 : h.cell p s with
    | none =>
      cases h2 : g.cell p s with
      | none => rfl
      | some o => rw [h1, h2] at this; simp at this
    | some o =>
      cases h2 : g.cell p s with
      | none => rw [h1, h2] at this; simp at this
      | some o' =>
        rw [h1, h2] at this
        obtain ⟨d, b⟩ := o
        obtain ⟨d', b'⟩ := o'
        simp only [Option.map_some, Option.some.injEq] at this
        subst this
        cases d <;> rfl
  | _ => rfl

theorem UInv.sizeAt (u : UInv cfg g f h P) {x y n : Nat} {b : Body}
    (hc : g.cell x y = some ⟨.own n, b⟩) : sizeAt h x y = some n := by
  have := u.hdr x y
  rw [hc] at this
  cases h1 : h.cell x y with
  | none => rw [h1] at this; simp at this
  | some o =>
    rw [h1] at this
    obtain ⟨d, b'⟩ := o
    simp only [Option.map_some, Option.some.injEq] at this
    subst this
    simp [Gc.sizeAt, h1]

/-- One object is updated. -/
theorem UInv.step (rd : Ready g f D) (u : UInv cfg g f h P) (hPD : ∀ x y, P x y → D x y)
    {p s : Nat} (hd : D p s) (hp : ¬ P p s) :
    ∃ h', updObj cfg h p s = some h' ∧
      UInv cfg g f h' (fun x y => P x y ∨ (x = p ∧ y = s)) := by
  obtain ⟨n, b, hb, _⟩ := rd.own p s hd
  have hc : h.cell p s = some ⟨.own n, b⟩ := (u.other p s hp).trans hb
  by_cases ht : b.isTracker = true
  · obtain ⟨r, rfl⟩ := isTracker_iff.1 ht
    -- the cell stays
    have hcell : ∀ h' : Heap, h'.cell = h.cell → ∀ x y, P x y ∨ (x = p ∧ y = s) →
        h'.cell x y = (g.cell x y).map (updated cfg f x y) := by
      intro h' hh' x y hxy
      rw [hh']
      by_cases hPx : P x y
      · exact u.cell x y hPx
      · obtain ⟨rfl, rfl⟩ := hxy.resolve_left hPx
        rw [hc, hb]
        rfl
    have hother : ∀ h' : Heap, h'.cell = h.cell → ∀ x y, ¬ (P x y ∨ (x = p ∧ y = s)) →
        h'.cell x y = g.cell x y := by
      intro h' hh' x y hxy
      rw [hh']
      exact u.other x y fun h => hxy (Or.inl h)
    rcases rd.track p s n r hd hb with rfl | ⟨k, X, rfl, hX, hXt, hrefs⟩
    · refine ⟨h, by simp [updObj, hc], u.num, u.flag, u.mark, u.used, u.free, u.cur, u.next, u.log,
        hcell h rfl, hother h rfl, ?_, ?_⟩
      · intro x y m k X hxy hg hX
        rcases hxy with h1 | ⟨rfl, rfl⟩
        · exact u.huge x y m k X h1 hg hX
        · rw [hb] at hg; cases hg
      · intro k hk
        exact u.hother k fun x y m h => hk x y m (Or.inl h)
    · have hno : ∀ x y m, P x y → g.cell x y ≠ some ⟨.own m, .tracker (.huge k)⟩ := by
        intro x y m hPx hg
        obtain ⟨rfl, rfl⟩ := rd.uniq x y m p s n k (hPD x y hPx) hg hd hb
        exact hp hPx
      have hXh : h.huge k = some X := (u.hother k hno).trans hX
      refine ⟨{ h with huge := fun j =>
        if j = k then some ⟨.heap p s, X.body.moved cfg f (.huge k)⟩ else h.huge j }, ?_, u.num,
        u.flag, u.mark, u.used, u.free, u.cur, u.next, u.log, hcell _ rfl, hother _ rfl, ?_, ?_⟩
      · simp only [updObj, hc, updHuge, hXh, hXt, u.updRef, upd_eq (.huge k) hXt hrefs]
        rfl
      · intro x y m j Y hxy hg hY
        by_cases hj : j = k
        · subst hj
          rcases hxy with h1 | ⟨rfl, rfl⟩
          · exact absurd hg (hno x y m h1)
          · rw [hX] at hY
            cases hY
            simp
        · simp only [if_neg hj]
          rcases hxy with h1 | ⟨rfl, rfl⟩
          · exact u.huge x y m j Y h1 hg hY
          · rw [hb] at hg
            cases hg
            exact absurd rfl hj
      · intro j hj
        have hjk : j ≠ k := by
          rintro rfl
          exact hj p s n (Or.inr ⟨rfl, rfl⟩) hb
        simp only [if_neg hjk]
        exact u.hother j fun x y m h => hj x y m (Or.inl h)
  · have ht : b.isTracker = false := by simpa using ht
    have hup : b.upd cfg (Gc.updRef h) (.heap p s) = some (b.moved cfg f (.heap p s)) := by
      rw [u.updRef]
      exact upd_eq _ ht (rd.refs p s n b hd hb ht)
    refine ⟨{ h with cell := setCell h.cell p s (some ⟨.own n, b.moved cfg f (.heap p s)⟩) }, ?_,
      u.num, u.flag, u.mark, u.used, u.free, u.cur, u.next, u.log, ?_, ?_, ?_, ?_⟩
    · unfold updObj
      rw [hc]
      cases b <;> first | (simp only [hup]) | simp [Body.isTracker] at ht
    · intro x y hxy
      by_cases hne : x = p ∧ y = s
      · obtain ⟨rfl, rfl⟩ := hne
        simp only [setCell_same, hb, Option.map_some, updated, ht, Bool.false_eq_true, if_false]
      · simp only [setCell_ne _ _ hne]
        exact u.cell x y (hxy.resolve_right hne)
    · intro x y hxy
      simp only [setCell_ne _ _ fun h => hxy (Or.inr h)]
      exact u.other x y fun h => hxy (Or.inl h)
    · intro x y m k X hxy hg hX
      rcases hxy with h1 | ⟨rfl, rfl⟩
      · exact u.huge x y m k X h1 hg hX
      · rw [hb] at hg
        cases hg
        simp [Body.isTracker] at ht
    · intro k hk
      exact u.hother k fun x y m h => hk x y m (Or.inl h)

/-- The objects of a page from slot `s` on are updated. -/
theorem updPage_spec (rd : Ready g f D) {p e : Nat} :
    ∀ (fuel : Nat) (h : Heap) (s : Nat) (P : Nat → Nat → Prop), e - s ≤ fuel →
      Tile (g.cell p) s e → (∀ x y, P x y → D x y) →
      (∀ z, s ≤ z → z < e → Tile (g.cell p) s z → D p z ∧ ¬ P p z) → UInv cfg g f h P →
      ∃ h', updPage cfg p e fuel h s = some h' ∧
        UInv cfg g f h' (fun x y => P x y ∨ (x = p ∧ s ≤ y ∧ y < e ∧ Tile (g.cell p) s y)) := by
  intro fuel
  induction fuel with
  | zero =>
    intro h s P hf ht hPD hz u
    refine ⟨h, ?_, u.congr fun x y => ?_⟩
    · unfold updPage
      rw [if_neg (by omega)]
    · constructor
      · rintro (h1 | ⟨_, h1, h2, _⟩)
        · exact h1
        · omega
      · exact Or.inl
  | succ fuel ih =>
    intro h s P hf ht hPD hz u
    unfold updPage
    by_cases hse : s < e
    · obtain ⟨n, b, hb, hn, hle, ht'⟩ := ht.head hse
      obtain ⟨hd, hnp⟩ := hz s (Nat.le_refl _) hse (.nil _)
      obtain ⟨h1, hh1, u1⟩ := u.step rd hPD hd hnp
      simp only [if_pos hse, u.sizeAt hb, hh1]
      obtain ⟨h2, hh2, u2⟩ := ih h1 (s + n) _ (by omega) ht'
        (by
          rintro x y (hx | ⟨rfl, rfl⟩)
          · exact hPD x y hx
          · exact hd)
        (by
          intro z hz1 hz2 hz3
          obtain ⟨h3, h4⟩ := hz z (by omega) hz2 (.cons hb hn hz3)
          refine ⟨h3, ?_⟩
          rintro (h5 | ⟨_, h5⟩)
          · exact h4 h5
          · omega) u1
      refine ⟨h2, hh2, u2.congr fun x y => ?_⟩
      constructor
      · rintro (h3 | ⟨rfl, h3, h4, h5⟩)
        · exact Or.inl (Or.inl h3)
        · cases h5 with
          | nil => exact Or.inl (Or.inr ⟨rfl, rfl⟩)
          | @cons _ m _ c h6 h7 h8 =>
            rw [hb] at h6
            cases h6
            exact Or.inr ⟨rfl, h8.le, h4, h8⟩
      · rintro ((h3 | ⟨rfl, rfl⟩) | ⟨rfl, h3, h4, h5⟩)
        · exact Or.inl h3
        · exact Or.inr ⟨rfl, Nat.le_refl _, hse, .nil _⟩
        · exact Or.inr ⟨rfl, by omega, h4, .cons hb hn h5⟩
    · simp only [if_neg hse]
      refine ⟨h, rfl, u.congr fun x y => ?_⟩
      constructor
      · rintro (h1 | ⟨_, h1, h2, _⟩)
        · exact h1
        · omega
      · exact Or.inl

/-- All objects of a list of pages are updated. -/
theorem updPages_spec (rd : Ready g f D) :
    ∀ (l : List Nat) (h : Heap) (P : Nat → Nat → Prop), l.Nodup →
      (∀ p ∈ l, Tile (g.cell p) 0 (g.num p)) → (∀ x y, P x y → D x y) →
      (∀ p ∈ l, ∀ z, z < g.num p → Tile (g.cell p) 0 z → D p z ∧ ¬ P p z) → UInv cfg g f h P →
      ∃ h', updPages cfg l h = some h' ∧
        UInv cfg g f h' (fun x y => P x y ∨ (x ∈ l ∧ y < g.num x ∧ Tile (g.cell x) 0 y)) := by
  intro l
  induction l with
  | nil =>
    intro h P _ _ _ _ u
    exact ⟨h, rfl, u.congr fun x y => by simp⟩
  | cons p l ih =>
    intro h P hnd ht hPD hz u
    have hnd' := List.nodup_cons.1 hnd
    obtain ⟨h1, hh1, u1⟩ := updPage_spec (cfg := cfg) rd (g.num p) h 0 P (Nat.le_refl _)
      (ht p List.mem_cons_self) hPD (fun z _ h2 h3 => hz p List.mem_cons_self z h2 h3) u
    unfold updPages
    rw [u.num]
    simp only [hh1]
    obtain ⟨h2, hh2, u2⟩ := ih h1 _ hnd'.2 (fun q hq => ht q (List.mem_cons_of_mem _ hq))
      (by
        rintro x y (h3 | ⟨rfl, _, h4, h5⟩)
        · exact hPD x y h3
        · exact (hz x List.mem_cons_self y h4 h5).1)
      (by
        intro q hq z h3 h4
        obtain ⟨h5, h6⟩ := hz q (List.mem_cons_of_mem _ hq) z h3 h4
        refine ⟨h5, ?_⟩
        rintro (h7 | ⟨rfl, _⟩)
        · exact h6 h7
        · exact hnd'.1 hq) u1
    refine ⟨h2, hh2, u2.congr fun x y => ?_⟩
    constructor
    · rintro (h3 | ⟨h3, h4, h5⟩)
      · exact Or.inl (Or.inl h3)
      · rcases List.mem_cons.1 h3 with rfl | h3
        · exact Or.inl (Or.inr ⟨rfl, Nat.zero_le _, h4, h5⟩)
        · exact Or.inr ⟨h3, h4, h5⟩
    · rintro ((h3 | ⟨rfl, _, h4, h5⟩) | ⟨h3, h4, h5⟩)
      · exact Or.inl h3
      · exact Or.inr ⟨List.mem_cons_self, h4, h5⟩
      · exact Or.inr ⟨List.mem_cons_of_mem _ h3, h4, h5⟩

end

end Verif.Gc
