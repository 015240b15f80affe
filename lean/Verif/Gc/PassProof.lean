import Verif.Gc.UpdProof

/-! # One round of moving and updating -/

namespace Verif.Gc

/-- Where a reference leads after objects were moved. -/
def mv (g : Heap) : Ref → Ref
  | .heap p s => .heap (fwd g.cell p s).1 (fwd g.cell p s).2
  | r => r

theorem mv_moves (g : Heap) : Moves (mv g) :=
  ⟨fun _ => rfl, rfl, fun _ => rfl, fun _ _ => ⟨_, _, rfl⟩⟩

/-- The objects after evacuation. -/
def Dom (g : Heap) (inc : Option (Nat × Nat)) (p s : Nat) : Prop :=
  IsObj g p s ∨ ∃ off, inc = some (p, off) ∧ off ≤ s ∧ s < g.num p ∧ Tile (g.cell p) off s

/-! ## Roots -/

section
variable {F : Ref → Option Ref} {f : Ref → Ref}

theorem mapM_gen {α : Type} {G : α → Option α} {k : α → α} :
    ∀ {l : List α}, (∀ r ∈ l, G r = some (k r)) → l.mapM G = some (l.map k)
  | [], _ => rfl
  | r :: l, h => by
    rw [List.mapM_cons, h r List.mem_cons_self,
      mapM_gen fun x hx => h x (List.mem_cons_of_mem _ hx)]
    rfl

theorem updThread_eq {t : Option Thread} (h : ∀ r ∈ threadRefs t, F r = some (f r)) :
    updThread F t = some (t.map (·.move f)) := by
  cases t with
  | none => rfl
  | some t =>
    simp only [threadRefs, List.mem_cons, List.not_mem_nil, or_false, forall_eq_or_imp,
      forall_eq] at h
    simp [updThread, h, Thread.move]

theorem updCtx_eq {c : Ctx} (h : ∀ r ∈ ctxRefs c, F r = some (f r)) :
    updCtx F c = some (c.move f) := by
  simp only [ctxRefs, List.mem_append, List.mem_cons, List.not_mem_nil, or_false] at h
  simp [updCtx, h, mapM_eq fun r hr => h r (Or.inl (Or.inr hr)),
    mapM_eq fun r hr => h r (Or.inr hr), Ctx.move]

theorem updInst_eq {i : Inst} (h : ∀ r ∈ i.kept, F r = some (f r)) :
    updInst F i = some ((i.move f).keepTwo i) := by
  have ht : i.threads.mapM (updThread F) = some (i.threads.map (·.map (·.move f))) := by
    refine mapM_gen fun t ht => updThread_eq fun r hr => h r ?_
    simp only [Inst.kept, List.mem_append, List.mem_flatMap]
    exact Or.inl (Or.inr ⟨t, ht, hr⟩)
  have hc : i.ctxs.mapM (updCtx F) = some (i.ctxs.map (·.move f)) := by
    refine mapM_gen fun c hc => updCtx_eq fun r hr => h r ?_
    simp only [Inst.kept, List.mem_append, List.mem_flatMap]
    exact Or.inr ⟨c, hc, hr⟩
  have h' : ∀ r ∈ [i.protos.object, i.protos.number, i.protos.integer, i.protos.float,
      i.protos.string, i.protos.boolean, i.protos.array, i.protos.buffer, i.protos.function,
      i.protos.cls, i.protos.generator, i.protos.exception, i.protos.generatorEnd,
      i.protos.thread, i.protos.module, i.mods.searchPaths, i.mods.moduleNames, i.mods.modules,
      i.mods.initModule, i.mods.moduleInits, i.args], F r = some (f r) := by
    intro r hr
    refine h r ?_
    simp only [Inst.kept]
    rw [List.mem_append, List.mem_append]
    exact Or.inl (Or.inl hr)
  simp only [List.mem_cons, List.not_mem_nil, or_false, forall_eq_or_imp, forall_eq] at h'
  simp [updInst, updProtos, updMods, h', ht, hc, Inst.move, Inst.keepTwo, Protos.move, Mods.move]

theorem threadRefs_move (t : Option Thread) :
    threadRefs (t.map (·.move f)) = (threadRefs t).map f := by
  cases t <;> rfl

theorem ctxRefs_move (c : Ctx) : ctxRefs (c.move f) = (ctxRefs c).map f := by
  simp [ctxRefs, Ctx.move]

theorem kept_move (i j : Inst) : ((i.move f).keepTwo j).kept = i.kept.map f := by
  simp only [Inst.kept, Inst.move, Inst.keepTwo, Protos.move, Mods.move, List.map_append,
    List.map_cons, List.map_nil, List.map_flatMap, List.flatMap_map, threadRefs_move,
    ctxRefs_move]

end

/-! ## After evacuation -/

section
variable {cfg : Cfg} {h0 g : Heap} {L : Nat → Nat → Prop} {R : List Ref} {fp : List Nat}
  {B : Nat → Nat} {inc : Option (Nat × Nat)}

/-- What is known when objects have been moved. -/
structure Evaced (cfg : Cfg) (h0 : Heap) (L : Nat → Nat → Prop) (g : Heap) (fp : List Nat)
    (inc : Option (Nat × Nat)) (B : Nat → Nat) : Prop where
  inv : EInv cfg h0 L g ((inc.map Prod.fst).toList ++ fp) B (inc.map Prod.fst)
  cur : g.cur = none
  fp : ∀ p ∈ fp, B p = h0.num p
  off : ∀ p s, inc = some (p, s) → B p = s ∧ 0 < s ∧ s < h0.num p

theorem Evaced.part (v : Evaced cfg h0 L g fp inc B) {p off : Nat} (hi : inc = some (p, off)) :
    g.num p = h0.num p ∧ p ∈ h0.used ∧ p ∉ g.all ∧ p ∉ fp ∧ p < g.next := by
  have hp : p ∈ (inc.map Prod.fst).toList ++ fp := by rw [hi]; simp
  refine ⟨(v.inv.part p (by rw [hi]; rfl)).2.1, v.inv.orig p hp, v.inv.apart p hp, ?_,
    v.inv.outlt p hp⟩
  have := v.inv.out
  rw [hi] at this
  simp only [Option.map_some, Option.toList, List.singleton_append, List.nodup_cons] at this
  exact this.1

/-- The objects of the part of a page which was not moved. -/
theorem Evaced.partCell (v : Evaced cfg h0 L g fp inc B) {p off x n : Nat} {b : Body}
    (hi : inc = some (p, off)) (hx : off ≤ x) (hx' : x < h0.num p)
    (ht : Tile (h0.cell p) 0 x) (hb : h0.cell p x = some ⟨.own n, b⟩) :
    (L p x ∧ g.cell p x = some ⟨.own n, b⟩) ∨
      (¬ L p x ∧ g.cell p x = some ⟨.own n, .opaque 0⟩) := by
  have hB := (v.off p off hi).1
  by_cases hl : L p x
  · left
    refine ⟨hl, ?_⟩
    rcases v.inv.live p x hl with h1 | ⟨_, h1, _⟩
    · exact h1.1.trans hb
    · omega
  · exact Or.inr ⟨hl, (v.inv.part p (by rw [hi]; rfl)).2.2 x n b (by omega) hx' ht hb hl⟩

theorem Evaced.partTile (c0 : Closed cfg h0 L R) (v : Evaced cfg h0 L g fp inc B) {p off : Nat}
    (hi : inc = some (p, off)) : Tile (g.cell p) off (g.num p) ∧ Tile (h0.cell p) 0 off ∧
    ∀ x, x ≤ h0.num p → (Tile (g.cell p) off x ↔ off ≤ x ∧ Tile (h0.cell p) 0 x) := by
  obtain ⟨hn, hu, _⟩ := v.part hi
  obtain ⟨hB, _, hlt⟩ := v.off p off hi
  have hp : p ∈ (inc.map Prod.fst).toList ++ fp := by rw [hi]; simp
  have ht0 : Tile (h0.cell p) 0 off := hB ▸ (v.inv.bound p hp).2
  have hall := (c0.pages.tiled p (Or.inl hu)).2
  have hrest : Tile (h0.cell p) off (h0.num p) := ht0.rest hall (by omega)
  have hsz : ∀ x n b, off ≤ x → x < h0.num p → Tile (h0.cell p) off x →
      h0.cell p x = some ⟨.own n, b⟩ → ∃ b', g.cell p x = some ⟨.own n, b'⟩ := by
    intro x n b hx hx' ht hb
    rcases v.partCell hi hx hx' (ht0.trans ht) hb with ⟨_, h1⟩ | ⟨_, h1⟩
    · exact ⟨_, h1⟩
    · exact ⟨_, h1⟩
  refine ⟨by rw [hn]; exact hrest.transfer hsz, ht0, ?_⟩
  intro x hx
  constructor
  · intro h1
    exact ⟨h1.le, ht0.trans (hrest.back hsz h1 hx)⟩
  · rintro ⟨h1, h2⟩
    exact (ht0.rest h2 h1).transfer fun y n b hy hy' ht hb => hsz y n b hy (by omega) ht hb

/-- Every object is one to be kept, or opaque. -/
theorem Evaced.dom (c0 : Closed cfg h0 L R) (v : Evaced cfg h0 L g fp inc B) {x y : Nat}
    (hd : Dom g inc x y) : ∃ n b, g.cell x y = some ⟨.own n, b⟩ ∧ 0 < n ∧
      ((∃ p s, L p s ∧ fwd g.cell p s = (x, y) ∧ h0.cell p s = some ⟨.own n, b⟩) ∨
        b = .opaque 0) := by
  rcases hd with ho | ⟨off, hi, h1, h2, h3⟩
  · obtain ⟨n, b, hb, hn, _⟩ := IsObj.own v.inv ho
    refine ⟨n, b, hb, hn, ?_⟩
    rcases v.inv.objs x y n b ho hb with ⟨p, s, hl, hf⟩ | h1
    · left
      refine ⟨p, s, hl, hf, ?_⟩
      rcases v.inv.live p s hl with ⟨h1, _⟩ | ⟨_, _, m, c, q, t, h3, h4, h5, _⟩
      · obtain ⟨m, c, hm, _⟩ := L_own c0 hl
        rw [fwd_own (h1.trans hm)] at hf
        cases hf
        rw [← h1]; exact hb
      · rw [fwd_moved h4] at hf
        cases hf
        rw [hb] at h5
        rw [h3, h5]
    · exact Or.inr h1
  · obtain ⟨hn, hu, _⟩ := v.part hi
    obtain ⟨_, _, hst⟩ := v.partTile c0 hi
    have ht := ((hst y (by omega)).1 h3).2
    obtain ⟨n, b, hb, hn', _⟩ := c0.pages.obj ⟨Or.inl hu, by omega, ht⟩
    rcases v.partCell hi h1 (by omega) ht hb with ⟨hl, hc⟩ | ⟨_, hc⟩
    · exact ⟨n, b, hc, hn', Or.inl ⟨x, y, hl, fwd_own hc, hb⟩⟩
    · exact ⟨n, _, hc, hn', Or.inr rfl⟩

/-- Every object to be kept is somewhere. -/
theorem Evaced.kept (c0 : Closed cfg h0 L R) (v : Evaced cfg h0 L g fp inc B) {p s : Nat}
    (hl : L p s) : ∃ n b x y, h0.cell p s = some ⟨.own n, b⟩ ∧ fwd g.cell p s = (x, y) ∧
      g.cell x y = some ⟨.own n, b⟩ ∧ Dom g inc x y ∧ updRef g (.heap p s) = some (.heap x y) := by
  rcases v.inv.live p s hl with ⟨h1, h2⟩ | ⟨_, _, m, c, q, t, h3, h4, h5, h6⟩
  · obtain ⟨n, b, hb, _⟩ := L_own c0 hl
    have hc := h1.trans hb
    refine ⟨n, b, p, s, hb, fwd_own hc, hc, ?_, by simp [updRef, hc]⟩
    rcases h2 with ⟨h2, h3⟩ | h2
    · right
      rcases List.mem_append.1 h2 with h4 | h4
      · cases hi : inc with
        | none => rw [hi] at h4; simp at h4
        | some q =>
          obtain ⟨p', off⟩ := q
          rw [hi] at h4
          simp only [Option.map_some, Option.toList, List.mem_singleton] at h4
          subst h4
          have hB := (v.off p off hi).1
          have ho := c0.obj p s hl
          obtain ⟨_, _, hst⟩ := v.partTile c0 hi
          exact ⟨off, rfl, by omega, by rw [(v.part hi).1]; exact ho.2.1,
            (hst s (Nat.le_of_lt ho.2.1)).2 ⟨by omega, ho.2.2⟩⟩
      · have := v.fp p h4
        have := (c0.obj p s hl).2.1
        omega
    · exact Or.inl h2
  · exact ⟨m, c, q, t, h3, fwd_moved h4, h5, Or.inl h6, by simp [updRef, h4]⟩

theorem Evaced.ref (c0 : Closed cfg h0 L R) (v : Evaced cfg h0 L g fp inc B) {r : Ref}
    (hr : Good h0 L r) : updRef g r = some (mv g r) := by
  cases r with
  | heap p s =>
    obtain ⟨n, b, x, y, _, h2, _, _, h5⟩ := v.kept c0 hr
    rw [h5, mv, h2]
  | _ => rfl

/-- Huge objects of trackers to be kept are as before. -/
theorem Evaced.ready (c0 : Closed cfg h0 L R) (v : Evaced cfg h0 L g fp inc B) :
    Ready g (mv g) (Dom g inc) := by
  refine ⟨?_, ?_, ?_, ?_⟩
  · intro x y hd
    obtain ⟨n, b, hb, hn, _⟩ := v.dom c0 hd
    exact ⟨n, b, hb, hn⟩
  · intro x y n b hd hb ht r hr
    obtain ⟨n', b', hb', _, h1⟩ := v.dom c0 hd
    rw [hb] at hb'
    cases hb'
    rcases h1 with ⟨p, s, hl, _, hc⟩ | rfl
    · exact v.ref c0 (c0.refs p s n b hl hc r hr)
    · cases hr
  · intro x y n r hd hb
    obtain ⟨n', b', hb', _, h1⟩ := v.dom c0 hd
    rw [hb] at hb'
    cases hb'
    rcases h1 with ⟨p, s, hl, _, hc⟩ | h1
    · rcases c0.trackers p s n r (c0.obj p s hl) hc with rfl | ⟨k, X, rfl, hX, _, hXt⟩
      · exact Or.inl rfl
      · refine Or.inr ⟨k, X, rfl, ?_, hXt, fun r hr => ?_⟩
        · rw [v.inv.huges p s n k (c0.obj p s hl) (Or.inl hl) hc]; exact hX
        · exact v.ref c0 (c0.hrefs p s n k X hl hc hX r hr)
    · cases h1
  · intro x y n x' y' n' k hd hb hd' hb'
    obtain ⟨m, c, hc, _, h1⟩ := v.dom c0 hd
    obtain ⟨m', c', hc', _, h1'⟩ := v.dom c0 hd'
    rw [hb] at hc
    cases hc
    rw [hb'] at hc'
    cases hc'
    rcases h1 with ⟨p, s, hl, hf, hc⟩ | h1
    · rcases h1' with ⟨p', s', hl', hf', hc'⟩ | h1'
      · obtain ⟨rfl, rfl⟩ := c0.trackers.uniq (c0.obj p s hl) hc (c0.obj p' s' hl') hc'
        rw [hf] at hf'
        cases hf'
        exact ⟨rfl, rfl⟩
      · cases h1'
    · cases h1

/-! ## The heap after the round -/

/-- The heap when references have been updated and pages given back. -/
structure Passed (cfg : Cfg) (g : Heap) (inc : Option (Nat × Nat)) (h : Heap) : Prop where
  pages : PagesOk cfg h
  cur : h.cur = none
  obj : ∀ x y, IsObj h x y ↔ Dom g inc x y ∨ ∃ off, inc = some (x, off) ∧ y = 0
  cell : ∀ x y, Dom g inc x y → h.cell x y = (g.cell x y).map (updated cfg (mv g) x y)
  front : ∀ x off, inc = some (x, off) → h.cell x 0 = some ⟨.own off, .opaque 0⟩
  huge : ∀ x y n k X, Dom g inc x y → g.cell x y = some ⟨.own n, .tracker (.huge k)⟩ →
    g.huge k = some X → h.huge k = some ⟨.heap x y, X.body.moved cfg (mv g) (.huge k)⟩
  used : ∀ x, x ∈ h.used ↔ x ∈ g.used ∨ ∃ off, inc = some (x, off)
  flag : h.flag = g.flag
  mark : ∀ x y, (∀ off, inc = some (x, off) → off ≤ y) → h.mark x y = g.mark x y
  mfront : ∀ x off y, inc = some (x, off) → y < off → h.mark x y = ⟨false, false⟩
  num : ∀ x, x ∈ h.used → h.num x = g.num x
  log : h.log = g.log

theorem isObj_cur {h : Heap} (hc : h.cur = none) (x y : Nat) :
    IsObj h x y ↔ x ∈ h.used ∧ y < h.num x ∧ Tile (h.cell x) 0 y := by
  unfold IsObj Heap.inUse
  rw [hc]
  simp

theorem Option.map_cell {o : Option Obj} {n x y : Nat} {b : Body} {cfg : Cfg} {f : Ref → Ref}
    (ho : o = some ⟨.own n, b⟩) : ∃ b', o.map (updated cfg f x y) = some ⟨.own n, b'⟩ := by
  subst ho
  exact ⟨_, rfl⟩

/-- Tiles after the update. -/
theorem UInv.tile {h : Heap} {f : Ref → Ref} {P : Nat → Nat → Prop} (u : UInv cfg g f h P)
    (x s e : Nat) : Tile (h.cell x) s e ↔ Tile (g.cell x) s e := by
  have h1 : ∀ {c d : Nat → Option Obj}, (∀ y, (d y).map Obj.hdr = (c y).map Obj.hdr) →
      Tile c s e → Tile d s e := by
    intro c d hcd ht
    refine ht.transfer fun y n b _ _ _ hc => ?_
    have := hcd y
    rw [hc] at this
    cases hd : d y with
    | none => rw [hd] at this; simp at this
    | some o =>
      rw [hd] at this
      obtain ⟨d', b'⟩ := o
      simp only [Option.map_some, Option.some.injEq] at this
      subst this
      exact ⟨b', rfl⟩
  exact ⟨h1 fun y => (u.hdr x y).symm, h1 fun y => u.hdr x y⟩

/-- The rest of a round. -/
theorem finish_spec (c0 : Closed cfg h0 L R) (v : Evaced cfg h0 L g fp inc B) {i : Inst}
    (hR : R = i.kept) :
    ∃ h1 h2, updPages cfg g.used g = some h1 ∧
      updInst (updRef h1) i = some ((i.move (mv g)).keepTwo i) ∧
      updInc cfg h1 inc = some h2 ∧ Passed cfg g inc (reclaim h2 fp) := by
  have rd := v.ready c0
  have e := v.inv
  have hnd := e.lists.nodup
  simp only [Heap.all, v.cur, Option.toList, List.nil_append] at hnd
  have hund : g.used.Nodup := (List.nodup_append.1 hnd).1
  have hin : ∀ p ∈ g.used, g.inUse p := fun p hp => Or.inl hp
  obtain ⟨h1, hh1, u1⟩ := updPages_spec (cfg := cfg) rd g.used g (fun _ _ => False) hund
    (fun p hp => e.tiled p (hin p hp)) (fun _ _ h => absurd h id)
    (fun p hp z hz ht => ⟨Or.inl ⟨hin p hp, hz, ht⟩, id⟩) UInv.start
  have u1 : UInv cfg g (mv g) h1 (IsObj g) := u1.congr fun x y => by
    rw [isObj_cur v.cur]; simp
  have hinst : updInst (updRef h1) i = some ((i.move (mv g)).keepTwo i) := by
    rw [u1.updRef]
    exact updInst_eq fun r hr => v.ref c0 (c0.roots r (hR ▸ hr))
  -- pages given back hold no objects
  have hfpu : ∀ p ∈ fp, p ∉ g.all := fun p hp => e.apart p (List.mem_append.2 (Or.inr hp))
  have hfplt : ∀ p ∈ fp, p < g.next := fun p hp => e.outlt p (List.mem_append.2 (Or.inr hp))
  have hfpnd : fp.Nodup := (List.nodup_append.1 e.out).2.1
  have hall : ∀ p, p ∈ g.all ↔ p ∈ g.used ∨ p ∈ g.free := by
    intro p; simp only [Heap.all, v.cur, Option.toList, List.nil_append, List.mem_append]
  cases hi : inc with
  | none =>
    refine ⟨h1, h1, hh1, hinst, rfl, ?_⟩
    have hdom : ∀ x y, Dom g none x y ↔ IsObj g x y := by intro x y; simp [Dom]
    have hused : (reclaim h1 fp).used = g.used := u1.used
    have hcur : (reclaim h1 fp).cur = none := u1.cur.trans v.cur
    have hnot : ∀ x ∈ g.used, x ∉ fp := fun x hx hx' => hfpu x hx' ((hall x).2 (Or.inl hx))
    have hcell : ∀ x ∈ g.used, ∀ y, (reclaim h1 fp).cell x y = h1.cell x y := by
      intro x hx y; simp [reclaim, wipe, hnot x hx]
    have hnum : ∀ x ∈ g.used, (reclaim h1 fp).num x = g.num x := by
      intro x hx
      rw [← u1.num]
      simp [reclaim, wipe, hnot x hx]
    have htile : ∀ x ∈ g.used, ∀ y, Tile ((reclaim h1 fp).cell x) 0 y ↔ Tile (g.cell x) 0 y := by
      intro x hx y
      rw [← u1.tile]
      have : (reclaim h1 fp).cell x = h1.cell x := by funext z; exact hcell x hx z
      rw [this]
    have hobj : ∀ x y, IsObj (reclaim h1 fp) x y ↔ IsObj g x y := by
      intro x y
      rw [isObj_cur hcur, isObj_cur v.cur, hused]
      constructor
      · rintro ⟨a1, a2, a3⟩
        exact ⟨a1, by rw [← hnum x a1]; exact a2, (htile x a1 y).1 a3⟩
      · rintro ⟨a1, a2, a3⟩
        exact ⟨a1, by rw [hnum x a1]; exact a2, (htile x a1 y).2 a3⟩
    refine ⟨⟨?_, ?_, ?_, ?_⟩, hcur, ?_, ?_, by simp, ?_, ?_, u1.flag, ?_, by simp, ?_, u1.log⟩
    · rw [hcur, hused]
      show (Option.none.toList ++ g.used ++ (fp ++ h1.free)).Nodup
      rw [u1.free]
      simp only [Option.toList, List.nil_append]
      refine List.nodup_append.2 ⟨hund, List.nodup_append.2 ⟨hfpnd, (List.nodup_append.1 hnd).2.1, ?_⟩, ?_⟩
      · rintro a ha b hb rfl
        exact hfpu a ha ((hall a).2 (Or.inr hb))
      · rintro a ha b hb rfl
        rcases List.mem_append.1 hb with hb | hb
        · exact hnot a ha hb
        · exact (List.nodup_append.1 hnd).2.2 a ha a hb rfl
    · rw [hcur, hused]
      show ∀ p ∈ Option.none.toList ++ g.used ++ (fp ++ h1.free), p < h1.next
      rw [u1.free, u1.next]
      intro p hp
      simp only [Option.toList, List.nil_append, List.mem_append] at hp
      rcases hp with hp | hp | hp
      · exact e.lists.lt p ((hall p).2 (Or.inl hp))
      · exact hfplt p hp
      · exact e.lists.lt p ((hall p).2 (Or.inr hp))
    · show ∀ p ∈ fp ++ h1.free, (reclaim h1 fp).num p = 0
      rw [u1.free]
      intro p hp
      by_cases hpf : p ∈ fp
      · simp [reclaim, wipe, hpf]
      · have hp := (List.mem_append.1 hp).resolve_left hpf
        have : (reclaim h1 fp).num p = g.num p := by rw [← u1.num]; simp [reclaim, wipe, hpf]
        rw [this]
        exact e.lists.free p hp
    · intro p hp
      have hp : p ∈ g.used := by
        rcases hp with hp | hp
        · exact hused ▸ hp
        · rw [hcur] at hp; cases hp
      rw [hnum p hp, htile p hp]
      exact ⟨e.lists.le p (hin p hp), e.tiled p (hin p hp)⟩
    · intro x y
      rw [hobj, hdom]
      simp
    · intro x y hd
      rw [hdom] at hd
      have hx := ((isObj_cur v.cur x y).1 hd).1
      rw [hcell x hx]
      exact u1.cell x y hd
    · intro x y n k X hd
      rw [hdom] at hd
      exact u1.huge x y n k X hd
    · intro x
      rw [hused]
      simp
    · intro x y _
      show h1.mark x y = _
      rw [u1.mark]
    · intro x hx
      rw [hused] at hx
      exact hnum x hx
  | some q =>
    obtain ⟨P, off⟩ := q
    subst hi
    obtain ⟨hPn, hPu, hPall, hPfp, hPlt⟩ := v.part rfl
    obtain ⟨hB, hoff, hlt⟩ := v.off P off rfl
    obtain ⟨hPt, _, hst⟩ := v.partTile c0 rfl
    have hPnot : P ∉ g.used := fun h => hPall ((hall P).2 (Or.inl h))
    obtain ⟨h2, hh2, u2⟩ := updPage_spec (cfg := cfg) rd (p := P) (e := g.num P) (g.num P) h1 off
      (IsObj g) (by omega) hPt (fun x y h => Or.inl h)
      (fun z hz1 hz2 hz3 => ⟨Or.inr ⟨off, rfl, hz1, hz2, hz3⟩, fun ho =>
        hPnot ((isObj_cur v.cur P z).1 ho).1⟩) u1
    have u2 : UInv cfg g (mv g) h2 (Dom g (some (P, off))) := u2.congr fun x y => by
      unfold Dom
      constructor
      · rintro (h1 | ⟨o, h1, h2, h3, h4⟩)
        · exact Or.inl h1
        · cases h1
          exact Or.inr ⟨rfl, h2, h3, h4⟩
      · rintro (h1 | ⟨rfl, h2, h3, h4⟩)
        · exact Or.inl h1
        · exact Or.inr ⟨off, rfl, h2, h3, h4⟩
    have hup : updInc cfg h1 (some (P, off)) = some (pushUsed cfg (mergeFront h2 P off) P) := by
      unfold updInc
      rw [u1.num]
      simp only [hh2]
    refine ⟨h1, _, hh1, hinst, hup, ?_⟩
    generalize hh4 : reclaim (pushUsed cfg (mergeFront h2 P off) P) fp = h4
    have hperm : h4.used.Perm (P :: g.used) := by
      rw [← hh4]
      show (pushPage cfg (mergeFront h2 P off) h2.used P).Perm _
      rw [← u2.used]
      exact pushPage_perm _ _ _ _
    have hused : ∀ x, x ∈ h4.used ↔ x = P ∨ x ∈ g.used := by
      intro x; rw [hperm.mem_iff, List.mem_cons]
    have hcur : h4.cur = none := by rw [← hh4]; exact u2.cur.trans v.cur
    have hfree : h4.free = fp ++ g.free := by rw [← hh4]; show fp ++ h2.free = _; rw [u2.free]
    have hnot : ∀ x ∈ g.used, x ∉ fp := fun x hx hx' => hfpu x hx' ((hall x).2 (Or.inl hx))
    have hnot4 : ∀ x ∈ h4.used, x ∉ fp := by
      intro x hx
      rcases (hused x).1 hx with rfl | hx
      · exact hPfp
      · exact hnot x hx
    have hne : ∀ x ∈ g.used, x ≠ P := fun x hx h => hPnot (h ▸ hx)
    have hcell : ∀ x y, x ∈ h4.used → (x = P → off ≤ y) → h4.cell x y = h2.cell x y := by
      intro x y hx hy
      rw [← hh4]
      simp only [reclaim, wipe, pushUsed, mergeFront, if_neg (hnot4 x hx)]
      by_cases hxP : x = P
      · have := hy hxP
        rw [if_neg (by omega), if_neg (by omega)]
      · rw [if_neg (by omega), if_neg (by omega)]
    have hfront : h4.cell P 0 = some ⟨.own off, .opaque 0⟩ := by
      rw [← hh4]
      simp [reclaim, wipe, pushUsed, mergeFront, hPfp]
    have hnum : ∀ x ∈ h4.used, h4.num x = g.num x := by
      intro x hx
      rw [← hh4, ← u2.num]
      simp [reclaim, wipe, pushUsed, mergeFront, hnot4 x hx]
    have htile : ∀ x ∈ g.used, ∀ y, Tile (h4.cell x) 0 y ↔ Tile (g.cell x) 0 y := by
      intro x hx y
      rw [← u2.tile]
      have : h4.cell x = h2.cell x := by
        funext z; exact hcell x z ((hused x).2 (Or.inr hx)) fun h => absurd h (hne x hx)
      rw [this]
    have hP4 : P ∈ h4.used := (hused P).2 (Or.inl rfl)
    have htP : ∀ y, Tile (h4.cell P) off y ↔ Tile (g.cell P) off y := by
      intro y
      rw [← u2.tile]
      constructor
      · intro h; exact h.congr fun z hz _ => (hcell P z hP4 fun _ => hz).symm
      · intro h; exact h.congr fun z hz _ => hcell P z hP4 fun _ => hz
    have htP0 : ∀ y, Tile (h4.cell P) 0 y ↔ y = 0 ∨ Tile (g.cell P) off y := by
      intro y
      constructor
      · intro h
        cases h with
        | nil => exact Or.inl rfl
        | @cons _ n _ b h1 h2 h3 =>
          rw [hfront] at h1
          cases h1
          rw [Nat.zero_add] at h3
          exact Or.inr ((htP y).1 h3)
      · rintro (rfl | h)
        · exact .nil _
        · refine .cons hfront hoff ?_
          rw [Nat.zero_add]
          exact (htP y).2 h
    have hobj : ∀ x y, IsObj h4 x y ↔
        Dom g (some (P, off)) x y ∨ ∃ o, some (P, off) = some (x, o) ∧ y = 0 := by
      intro x y
      rw [isObj_cur hcur]
      unfold Dom
      rw [isObj_cur v.cur]
      constructor
      · rintro ⟨a1, a2, a3⟩
        rw [hnum x a1] at a2
        rcases (hused x).1 a1 with rfl | a4
        · rcases (htP0 y).1 a3 with rfl | a5
          · exact Or.inr ⟨off, rfl, rfl⟩
          · exact Or.inl (Or.inr ⟨off, rfl, a5.le, a2, a5⟩)
        · exact Or.inl (Or.inl ⟨a4, a2, (htile x a4 y).1 a3⟩)
      · rintro ((⟨a1, a2, a3⟩ | ⟨o, a1, a2, a3, a4⟩) | ⟨o, a1, rfl⟩)
        · have a4 := (hused x).2 (Or.inr a1)
          exact ⟨a4, by rw [hnum x a4]; exact a2, (htile x a1 y).2 a3⟩
        · cases a1
          exact ⟨hP4, by rw [hnum P hP4]; exact a3, (htP0 y).2 (Or.inr a4)⟩
        · cases a1
          exact ⟨hP4, by rw [hnum P hP4, hPn]; omega, .nil _⟩
    refine ⟨⟨?_, ?_, ?_, ?_⟩, hcur, hobj, ?_, ?_, ?_, ?_, ?_, ?_, ?_, hnum,
      by rw [← hh4]; exact u2.log⟩
    · rw [hcur, hfree]
      simp only [Option.toList, List.nil_append]
      rw [(List.Perm.append_right _ hperm).nodup_iff]
      refine List.nodup_append.2 ⟨List.nodup_cons.2 ⟨hPnot, hund⟩,
        List.nodup_append.2 ⟨hfpnd, (List.nodup_append.1 hnd).2.1, ?_⟩, ?_⟩
      · rintro a ha b hb rfl
        exact hfpu a ha ((hall a).2 (Or.inr hb))
      · rintro a ha b hb rfl
        rcases List.mem_cons.1 ha with rfl | ha
        · rcases List.mem_append.1 hb with hb | hb
          · exact hPfp hb
          · exact hPall ((hall a).2 (Or.inr hb))
        · rcases List.mem_append.1 hb with hb | hb
          · exact hnot a ha hb
          · exact (List.nodup_append.1 hnd).2.2 a ha a hb rfl
    · have hnx : h4.next = g.next := by rw [← hh4]; exact u2.next
      rw [hcur, hfree, hnx]
      intro p hp
      simp only [Option.toList, List.nil_append, List.mem_append] at hp
      rcases hp with hp | hp | hp
      · rcases (hused p).1 hp with rfl | hp
        · exact hPlt
        · exact e.lists.lt p ((hall p).2 (Or.inl hp))
      · exact hfplt p hp
      · exact e.lists.lt p ((hall p).2 (Or.inr hp))
    · rw [hfree]
      intro p hp
      by_cases hpf : p ∈ fp
      · rw [← hh4]; simp [reclaim, wipe, hpf]
      · have hp := (List.mem_append.1 hp).resolve_left hpf
        have : h4.num p = g.num p := by
          rw [← hh4, ← u2.num]; simp [reclaim, wipe, pushUsed, mergeFront, hpf]
        rw [this]
        exact e.lists.free p hp
    · intro p hp
      have hp : p ∈ h4.used := by
        rcases hp with hp | hp
        · exact hp
        · rw [hcur] at hp; cases hp
      rw [hnum p hp]
      rcases (hused p).1 hp with rfl | hp
      · refine ⟨?_, (htP0 _).2 (Or.inr hPt)⟩
        rw [hPn]
        exact (c0.pages.tiled p (Or.inl hPu)).1
      · rw [htile p hp]
        exact ⟨e.lists.le p (hin p hp), e.tiled p (hin p hp)⟩
    · intro x y hd
      rw [hcell x y ?_ ?_]
      · exact u2.cell x y hd
      · rw [hused]
        rcases hd with hd | ⟨o, hd, _⟩
        · exact Or.inr ((isObj_cur v.cur x y).1 hd).1
        · cases hd; exact Or.inl rfl
      · rintro rfl
        rcases hd with hd | ⟨o, hd, h3, _⟩
        · exact absurd ((isObj_cur v.cur x y).1 hd).1 hPnot
        · cases hd; exact h3
    · intro x o hx
      cases hx
      exact hfront
    · intro x y n k X hd hc hX
      rw [← hh4]
      exact u2.huge x y n k X hd hc hX
    · intro x
      rw [hused]
      constructor
      · rintro (rfl | h)
        · exact Or.inr ⟨off, rfl⟩
        · exact Or.inl h
      · rintro (h | ⟨o, h⟩)
        · exact Or.inr h
        · cases h; exact Or.inl rfl
    · rw [← hh4]; exact u2.flag
    · intro x y hy
      rw [← hh4, ← u2.mark]
      simp only [reclaim, wipe, pushUsed, mergeFront]
      rw [if_neg]
      rintro ⟨rfl, h1⟩
      have := hy off rfl
      omega
    · intro x o y hx hy
      cases hx
      rw [← hh4]
      simp [reclaim, wipe, pushUsed, mergeFront, hy]

end

end Verif.Gc
