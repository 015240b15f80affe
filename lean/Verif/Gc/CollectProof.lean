import Verif.Gc.Carry

/-! # A whole collection -/

namespace Verif.Gc

section
variable {cfg : Cfg} {h h' : Heap} {L L' : Nat → Nat → Prop} {f : Ref → Ref} {R : List Ref}

theorem Good.body {r : Ref} (c : Closed cfg h L R) (hr : Good h L r) :
    (∃ b, bodyAt h r = some b) ∨ (∃ v, r = .val v) ∨ r = .bad := by
  cases r with
  | val v => exact Or.inr (Or.inl ⟨v, rfl⟩)
  | bad => exact Or.inr (Or.inr rfl)
  | heap p s =>
    obtain ⟨n, b, hb, _⟩ := L_own c hr
    exact Or.inl ⟨b, by simp [bodyAt, hb]⟩
  | huge k =>
    obtain ⟨x, _, _, _, hx, _⟩ := hr
    exact Or.inl ⟨x.body, by simp [bodyAt, hx]⟩

/-- What can be reached is among the closed set. -/
theorem Closed.reach (c : Closed cfg h L R) {r : Ref} (hr : Reach h R r) : Good h L r := by
  induction hr with
  | root hm => exact c.roots _ hm
  | @step r r' b hr hb hm ih =>
    cases r with
    | val v => cases hb
    | bad => cases hb
    | heap p s =>
      obtain ⟨n, b', hb', _⟩ := L_own c ih
      simp only [bodyAt, hb', Option.some.injEq] at hb
      subst hb
      exact c.refs p s n _ ih hb' _ hm
    | huge k =>
      obtain ⟨x, p, s, n, hx, _, _, hl, hc⟩ := ih
      simp only [bodyAt, hx, Option.map_some, Option.some.injEq] at hb
      subst hb
      exact c.hrefs p s n k x hl hc hx _ hm

/-- What can be reached afterwards could be reached before. -/
theorem Carries.reach (c : Carries cfg h L f h' L') (c0 : Closed cfg h L R) {r' : Ref}
    (hr : Reach h' (R.map f) r') : ∃ r, Reach h R r ∧ r' = f r := by
  induction hr with
  | root hm =>
    obtain ⟨r, h1, rfl⟩ := List.mem_map.1 hm
    exact ⟨r, .root h1, rfl⟩
  | @step r1 r2 b1 _ hb hm ih =>
    obtain ⟨r, hr, rfl⟩ := ih
    have hg := c0.reach hr
    rcases Good.body c0 hg with ⟨b, h1⟩ | ⟨v, rfl⟩ | rfl
    · obtain ⟨b', h2, h3⟩ := c.body r b hg h1
      rw [hb] at h2
      cases h2
      rw [h3.refs] at hm
      obtain ⟨r0, h4, rfl⟩ := List.mem_map.1 hm
      exact ⟨r0, .step hr h1 h4, rfl⟩
    · rw [c.moves.val] at hb; cases hb
    · rw [c.moves.bad] at hb; cases hb

theorem Good.valid {r : Ref} (c : Closed cfg h L R) (hr : Good h L r) : Valid h r := by
  cases r with
  | val v => trivial
  | bad => trivial
  | heap p s => exact c.obj p s hr
  | huge k =>
    obtain ⟨x, p, s, n, h1, h2, h3, hl, h4⟩ := hr
    exact ⟨x, p, s, n, h1, h2, h3, c.obj p s hl, h4⟩

/-- The new heap is well formed. -/
theorem Carries.wf (c : Carries cfg h L f h' L') (c0 : Closed cfg h L R)
    (c1 : Closed cfg h' L' (R.map f)) (hb : ∀ r d n, Reach h R r →
      bodyAt h r = some (.buffer d n) → ∀ b, bodyAt h d = some b → b.isStorage) :
    Wf cfg h' (R.map f) := by
  refine ⟨c1.pages, fun r hr => (c1.reach hr).valid c1, c1.trackers, ?_, ?_⟩
  · intro r' d' n hr' hbuf b' hd
    obtain ⟨r, hr, rfl⟩ := c.reach c0 hr'
    have hg := c0.reach hr
    rcases Good.body c0 hg with ⟨b, h1⟩ | ⟨v, rfl⟩ | rfl
    · obtain ⟨b1, h2, h3⟩ := c.body r b hg h1
      rw [hbuf] at h2
      cases h2
      obtain ⟨d, rfl, rfl⟩ := h3.buffer
      have hrd : Reach h R d := .step hr h1 (by simp [Body.refs])
      rcases Good.body c0 (c0.reach hrd) with ⟨b2, h4⟩ | ⟨v, rfl⟩ | rfl
      · obtain ⟨b3, h5, h6⟩ := c.body d b2 (c0.reach hrd) h4
        rw [hd] at h5
        cases h5
        exact h6.storage (hb r d n hr h1 b2 h4)
      · rw [c.moves.val] at hd; cases hd
      · rw [c.moves.bad] at hd; cases hd
    · rw [c.moves.val] at hbuf; cases hbuf
    · rw [c.moves.bad] at hbuf; cases hbuf
  · intro r q d hr hb
    have hg := c1.reach hr
    cases r with
    | val v => cases hb
    | bad => cases hb
    | heap p s =>
      obtain ⟨n, b, hc, _⟩ := L_own c1 hg
      simp only [bodyAt, hc, Option.some.injEq] at hb
      subst hb
      exact c1.stores p s n q d hg hc
    | huge k =>
      obtain ⟨x, p, s, n, hx, _, _, hl, hc⟩ := hg
      simp only [bodyAt, hx, Option.map_some, Option.some.injEq] at hb
      exact c1.hstores p s n k x q d hl hc hx hb

theorem SameHeap.preserved (e : SameHeap h h') : Preserved cfg (fun r => r) h h' R := by
  refine ⟨⟨fun _ => rfl, rfl, fun _ => rfl, fun p s => ⟨p, s, rfl⟩⟩, ?_, fun _ _ _ _ h => h⟩
  intro r b _ hb
  exact ⟨b, by rw [e.bodyAt]; exact hb, .id _ _ _⟩

theorem move_id (i : Inst) : (i.move fun r => r).keepTwo i = i := by
  obtain ⟨a, ⟨⟩, ⟨⟩, ts, cs⟩ := i
  simp only [Inst.move, Inst.keepTwo, Protos.move, Mods.move, Inst.mk.injEq, true_and]
  constructor
  · refine (List.map_congr_left (g := id) fun t _ => ?_).trans (List.map_id _)
    rcases t with _ | ⟨⟩ <;> rfl
  · refine (List.map_congr_left (g := id) fun c _ => ?_).trans (List.map_id _)
    obtain ⟨⟩ := c
    simp [Ctx.move]

end

/-- A collection preserves what can be reached, and it never reads memory that it must not
read. -/
theorem collect_spec {cfg : Cfg} (hu : 0 < cfg.unused) {h : Heap} {i : Inst}
    (w : Wf cfg h i.kept) (n : Nat) (sch : List (Nat × Nat)) :
    ∃ h' f ok, collect cfg h i n sch = some (h', (i.move f).keepTwo i, ok) ∧
      Preserved cfg f h h' i.kept ∧ Wf cfg h' (i.kept.map f) ∧
      (∀ r', Reach h' (i.kept.map f) r' → ∃ r, Reach h i.kept r ∧ r' = f r) ∧
      (ok = true → Exact f h h' i.kept) ∧
      ∃ l, h'.log = h.log ++ l ∧ (∀ r a, (r, a) ∈ l → Due h i.kept r a) ∧
        (NoModule h i.kept → l.Nodup) ∧
        ((∀ r a, Due h i.kept r a → (r, a) ∈ l) ∨ (l = [] ∧ ok = false)) := by
  have e1 := (release_same cfg h).trans (clear_same (release cfg h))
  have w1 : Wf cfg (clearMarking (release cfg h)) i.kept := e1.wf w
  have hcur : (clearMarking (release cfg h)).cur = none := release_cur cfg h
  have hflag : ∀ p ∈ (clearMarking (release cfg h)).used,
      (clearMarking (release cfg h)).flag p = false := by
    intro p hp
    have hp : p ∈ (release cfg h).used := hp
    simp [clearMarking, hp]
  obtain ⟨m, hm, inv⟩ := MInv.run w1 hcur sch (start_inv (release cfg h) i n)
  have e2 : SameHeap (clearMarking (release cfg h)) m.h := by
    rw [inv.same]; exact ⟨rfl, rfl, rfl, rfl, rfl, .refl _⟩
  have e : SameHeap h m.h := e1.trans e2
  have hlog : m.h.log = h.log := by
    rw [inv.same]
    exact release_log cfg h
  unfold collect
  simp only [hm]
  by_cases hd : m.isDone = true
  · rw [if_pos hd]
    obtain ⟨c0, m0⟩ := inv.closed w1 hcur hflag hd
    have hlen : m.h.todo.length < m.h.used.length + 1 :=
      Nat.lt_succ_of_le (List.length_filter_le _ _)
    obtain ⟨h', f, ok, L', hp, c, c1, l, hl, hcl⟩ := passes_spec hu _ m.h _ i c0 m0 hlen
    have wm : Wf cfg m.h i.kept := e.wf w
    refine ⟨h', f, ok, hp, ⟨c.moves, ?_, ?_⟩, c.wf c0 c1 wm.buffers, ?_, ?_, l, ?_⟩
    · intro r b hr hb
      exact c.body r b (c0.reach (e.reach.2 hr)) (by rw [e.bodyAt]; exact hb)
    · intro r r' hr hr' he
      exact c.inj r r' (c0.reach (e.reach.2 hr)) (c0.reach (e.reach.2 hr')) he
    · intro r' hr'
      obtain ⟨r, hr, h1⟩ := c.reach c0 hr'
      exact ⟨r, e.reach.1 hr, h1⟩
    · intro _ x y n b ho hb
      rcases c.exact x y n b ho hb with ⟨p, s, hl, hf⟩ | h1
      · have hat := inv.marked p s (by
          have := hl.1
          rw [inv.same] at this
          exact this) hl.2
        rcases (At.obj w1 hat).2 with h2 | ⟨k, X, n', h2, hX, _, _, hc⟩
        · exact Or.inr (Or.inl ⟨p, s, e1.reach.1 h2, hf⟩)
        · refine Or.inr (Or.inr ⟨k, e1.reach.1 h2, ?_⟩)
          obtain ⟨b', h3, h4⟩ := c.body (.heap p s) (.tracker (.huge k)) hl
            (by simp [bodyAt, e2.cell, hc])
          rw [hf] at h3
          simp only [bodyAt, hb, Option.some.injEq] at h3
          subst h3
          have h4 : b = .tracker (f (.huge k)) := h4
          rw [h4, c.moves.huge]
      · exact Or.inl h1
    · have hlit : ∀ {p s}, Lit m.h p s → (Reach m.h i.kept (.heap p s) ∨ ∃ k X n,
          Reach m.h i.kept (.huge k) ∧ m.h.huge k = some X ∧
            m.h.cell p s = some ⟨.own n, .tracker (.huge k)⟩) := by
        intro p s hl
        have hat := inv.marked p s (by
          have := hl.1
          rw [inv.same] at this
          exact this) hl.2
        rcases (At.obj w1 hat).2 with h2 | ⟨k, X, n', h2, hX, _, _, hc⟩
        · exact Or.inl (e2.reach.2 h2)
        · exact Or.inr ⟨k, X, n', e2.reach.2 h2, by rw [e2.huge]; exact hX,
            by rw [e2.cell]; exact hc⟩
      rw [hl, hlog]
      refine ⟨rfl, ?_, ?_, Or.inl ?_⟩
      · intro r a hra
        obtain ⟨p, s, h1, h2, h3⟩ := hcl.1 (r, a) hra
        rcases h3 with ⟨n, b, h3, h4, h5⟩ | ⟨n, k, x, h3, h4, h5, h6⟩
        · have h5 : r = .heap p s := h5
          subst h5
          refine ⟨(e.isObj p s).1 h1, fun hr => h2 (c0.reach (e.reach.2 hr)), b, ?_, h4⟩
          rw [← e.bodyAt]
          simp [bodyAt, h3]
        · have h6 : r = .huge k := h6
          subst h6
          refine ⟨?_, fun hr => ?_, x.body, ?_, h5⟩
          · rcases c0.trackers p s n _ h1 h3 with h7 | ⟨k', x', h7, h8, h9, h10⟩
            · cases h7
            · cases h7
              exact ⟨x', p, s, n, by rw [← e.huge]; exact h8, h9, h10, (e.isObj p s).1 h1,
                by rw [← e.cell]; exact h3⟩
          · obtain ⟨x', p', s', n', _, _, _, h7, h8⟩ := c0.reach (e.reach.2 hr)
            obtain ⟨rfl, rfl⟩ := c0.trackers.uniq h1 h3 (c0.obj p' s' h7) h8
            exact h2 h7
          · rw [← e.bodyAt]
            simp [bodyAt, h4]
      · intro hnm
        refine hcl.2.2 fun p s n b h1 h2 h3 h4 => ?_
        exact hnm p s n b ((e.isObj p s).1 h1) (by rw [← e.cell]; exact h3) h4
          fun hr => h2 (c0.reach (e.reach.2 hr))
      · rintro r a ⟨h1, h2, b, h3, h4⟩
        cases r with
        | val v => cases h3
        | bad => cases h3
        | heap p s =>
          have ho : IsObj m.h p s := (e.isObj p s).2 h1
          obtain ⟨n, b', hb', _⟩ := c0.pages.obj ho
          have hbb : b' = b := by
            rw [← e.bodyAt] at h3
            simpa [bodyAt, hb'] using h3
          subst hbb
          refine hcl.2.1 p s _ ho (fun hl => ?_) (Or.inl ⟨n, b', hb', h4, rfl⟩)
          rcases hlit hl with h5 | ⟨k, X, n', _, _, h5⟩
          · exact h2 (e.reach.1 h5)
          · rw [hb'] at h5
            cases h5
            cases h4
        | huge k =>
          obtain ⟨x, p, s, n, h5, h6, h7, h8, h9⟩ := h1
          have hbb : x.body = b := by simpa [bodyAt, h5] using h3
          subst hbb
          refine hcl.2.1 p s _ ((e.isObj p s).2 h8) (fun hl => ?_)
            (Or.inr ⟨n, k, x, by rw [e.cell]; exact h9, by rw [e.huge]; exact h5, h4, rfl⟩)
          rcases hlit hl with h10 | ⟨k', X, n', h10, _, h11⟩
          · exact h2 (.step (b := .tracker (.huge k)) (e.reach.1 h10) (by simp [bodyAt, h9])
              (by simp [Body.refs]))
          · rw [e.cell, h9] at h11
            cases h11
            exact h2 (e.reach.1 h10)
  · rw [if_neg hd]
    refine ⟨m.h, fun r => r, false, by rw [move_id], e.preserved, ?_, ?_, by simp, [], ?_, by simp, by simp,
      Or.inr ⟨rfl, rfl⟩⟩
    · rw [List.map_id']; exact e.wf w
    · intro r' hr'
      rw [List.map_id'] at hr'
      exact ⟨r', e.reach.1 hr', rfl⟩
    · rw [hlog, List.append_nil]

end Verif.Gc
