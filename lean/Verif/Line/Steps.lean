import Verif.Line.Proof

/-! Each key does what it means. -/
namespace Verif.Line

attribute [local irreducible] add32 sub32

/-- A node of the history has this text. -/
structure NodeRep (nd : Node) (cs : List (List Nat)) : Prop where
  bytes : nd.bytes.take nd.size = cs.flatten
  size : nd.size = cs.flatten.length
  lineSize : nd.lineSize = cs.length
  room : nd.capacity ≤ nd.room
  chars : ∀ c ∈ cs, IsChar c
  big : cs.flatten.length < 65536

/-- The nodes of the history have these texts. -/
inductive Reps : List Node → List (List (List Nat)) → Prop
  | nil : Reps [] []
  | cons {n : Node} {ns : List Node} {t : List (List Nat)} {ts : List (List (List Nat))} (h : NodeRep n t) (hs : Reps ns ts) : Reps (n :: ns) (t :: ts)

structure Inv (e : Ed) (z : Text) (N : Nat) : Prop where
  good : ∃ s, Good e z.chars z.cur s
  mode : if e.inter then e.cols ≤ 9999 else e.cols = 4294967295
  node : ∃ cs, NodeRep e.node cs
  older : Reps e.older z.older
  newer : Reps e.newer z.newer
  small : z.chars.flatten.length ≤ N
  smallO : ∀ o ∈ z.older, o.flatten.length ≤ N
  smallN : ∀ o ∈ z.newer, o.flatten.length ≤ N

variable {e e' : Ed} {z : Text} {N : Nat}

theorem Inv.next (h : Inv e z N) {cs : List (List Nat)} {n s' N' : Nat} (g : Good e' cs n s') (sm : Same e e') (hN : N ≤ N')
    (hs : cs.flatten.length ≤ N') : Inv e' { z with chars := cs, cur := n } N' :=
  ⟨⟨s', g⟩, by rw [sm.inter, sm.cols]; exact h.mode, by rw [sm.node]; exact h.node, by rw [sm.older]; exact h.older, by rw [sm.newer]; exact h.newer,
    hs, fun o ho => Nat.le_trans (h.smallO o ho) hN, fun o ho => Nat.le_trans (h.smallN o ho) hN⟩

theorem Inv.bell (h : Inv e z N) : Inv (e.emit .bell) z N := by
  obtain ⟨s, g⟩ := h.good
  exact h.next (g.emit _) (Same.emit e _) (Nat.le_refl _) h.small

theorem cut_len {cs : List (List Nat)} {a c : Nat} (hac : a ≤ c) : (cs.take a ++ cs.drop c).flatten.length ≤ cs.flatten.length := by
  have h1 : (cs.drop c).flatten.length ≤ (cs.drop a).flatten.length := by
    have : cs.drop c = (cs.drop a).drop (c - a) := by rw [List.drop_drop]; congr 1; omega
    rw [this, flat_split (cs := cs.drop a) (c - a), List.length_append]; omega
  rw [List.flatten_append, List.length_append]
  have : cs.flatten.length = (cs.take a).flatten.length + (cs.drop a).flatten.length := by
    conv => lhs; rw [flat_split (cs := cs) a, List.length_append]
  omega

/-! The history. -/

theorem newNode_rep {cs : List (List Nat)} (hc : ∀ c ∈ cs, IsChar c) (hb : cs.flatten.length < 65536) : NodeRep (newNode cs.flatten cs.length) cs := by
  have := len_le hc
  refine ⟨?_, ?_, ?_, ?_, hc, hb⟩
  · show cs.flatten.take (cs.flatten.length % 65536) = _
    rw [Nat.mod_eq_of_lt hb, List.take_of_length_le (Nat.le_refl _)]
  · exact Nat.mod_eq_of_lt hb
  · exact Nat.mod_eq_of_lt (by omega)
  · exact Nat.mod_le _ _

theorem save_ok {cs : List (List Nat)} {n s : Nat} (h : Good e cs n s) (hn : ∃ c0, NodeRep e.node c0) :
    ∃ nd, save e = .ok nd ∧ NodeRep nd cs := by
  obtain ⟨c0, r⟩ := hn
  have hl := h.len
  have hbig := h.big
  unfold save
  by_cases h1 : e.line.length = e.node.size ∧ e.line = e.node.bytes.take e.node.size
  · rw [if_pos h1]
    have hf : cs.flatten = c0.flatten := by rw [← h.line, h1.2, r.bytes]
    refine ⟨_, rfl, by rw [r.bytes, hf], by rw [r.size, hf], ?_, r.room, h.chars, h.big⟩
    rw [r.lineSize, ← count_chars c0 r.chars, ← count_chars cs h.chars, hf]
  · rw [if_neg h1]
    have key : ∀ nd : Node, nd.capacity ≤ nd.room → e.line.length ≤ nd.room →
        NodeRep { nd with size := e.line.length % 65536, lineSize := e.lineSize % 65536, bytes := e.line ++ nd.bytes.drop e.line.length } cs := by
      intro nd hr _
      refine ⟨?_, ?_, ?_, hr, h.chars, h.big⟩
      · show (e.line ++ nd.bytes.drop e.line.length).take (e.line.length % 65536) = _
        rw [h.line, Nat.mod_eq_of_lt hbig, List.take_append_of_le_length (Nat.le_refl _), List.take_of_length_le (Nat.le_refl _)]
      · show e.line.length % 65536 = _
        rw [h.line, Nat.mod_eq_of_lt hbig]
      · show e.lineSize % 65536 = _
        rw [h.size, Nat.mod_eq_of_lt hl]
    by_cases h2 : e.line.length > e.node.capacity ∨ e.node.persistent = true
    · have hroom : e.line.length ≤ (newNode e.line e.lineSize).room := by
        show e.line.length ≤ (e.line.length + 15) / 16 * 16; omega
      simp only [if_pos h2, if_pos hroom]
      exact ⟨_, rfl, key _ (Nat.mod_le _ _) hroom⟩
    · have hroom : e.line.length ≤ e.node.room := by
        have := r.room
        have : ¬ e.line.length > e.node.capacity := fun h0 => h2 (Or.inl h0)
        omega
      simp only [if_neg h2, if_pos hroom]
      exact ⟨_, rfl, key _ r.room hroom⟩

theorem restore_ok {cs : List (List Nat)} (r : NodeRep e.node cs) (hw : e.prompt.length + 2 ≤ e.cols)
    (hp : 1 ≤ e.prompt.length ∧ e.prompt.length ≤ 100) (hm : e.cols ≤ 9999 ∨ e.cols = 4294967295) :
    ∃ e' s', restore e = .ok e' ∧ Good e' cs cs.length s' ∧ Same e e' := by
  have hbig := r.big
  have hl := len_le r.chars
  have ha1 : add32 cs.length e.prompt.length = cs.length + e.prompt.length := by unfold add32; omega
  have hcur : (⟨cs.length, cs.flatten.length⟩ : Pos) = At cs cs.length := by simp [At]
  unfold restore
  simp only [r.bytes, r.lineSize, ha1, hcur, show (At cs cs.length).log = cs.length from rfl]
  by_cases h1 : cs.length + e.prompt.length > e.cols
  · have ha2 : add32 (sub32 cs.length e.cols) e.prompt.length = cs.length - (e.cols - e.prompt.length) := by unfold add32 sub32; omega
    rw [if_pos h1, ha2, decTo_at r.chars (by omega) _ (Nat.le_refl _), ok_bind]
    have hpre : Pre { e with line := cs.flatten, lineSize := cs.length, cursor := At cs cs.length, scroll := At cs (min cs.length (cs.length - (e.cols - e.prompt.length))) }
        cs cs.length (min cs.length (cs.length - (e.cols - e.prompt.length))) :=
      ⟨r.chars, rfl, rfl, rfl, Nat.le_refl _, rfl, by omega, hbig, hw, hp, Or.inl (show e.cols ≤ 9999 by omega)⟩
    obtain ⟨e', q, g, sm⟩ := redraw_ok hpre
    refine ⟨e', min cs.length (cs.length - (e.cols - e.prompt.length)), q, ?_, ⟨sm.node, sm.older, sm.newer, sm.prompt, sm.inter, sm.cols⟩⟩
    have : min cs.length (min cs.length (cs.length - (e.cols - e.prompt.length)) + (e.cols - e.prompt.length)) = cs.length := by omega
    simp only [this] at g
    exact g
  · rw [if_neg h1, ok_bind]
    have hpre : Pre { e with line := cs.flatten, lineSize := cs.length, cursor := At cs cs.length, scroll := ⟨0, 0⟩ } cs cs.length 0 :=
      ⟨r.chars, rfl, rfl, rfl, Nat.le_refl _, by simp [At], by omega, hbig, hw, hp, show e.cols ≤ 9999 ∨ (e.cols = 4294967295 ∧ 0 = 0) by omega⟩
    obtain ⟨e', q, g, sm⟩ := redraw_ok hpre
    refine ⟨e', 0, q, ?_, ⟨sm.node, sm.older, sm.newer, sm.prompt, sm.inter, sm.cols⟩⟩
    have : min cs.length (0 + (e.cols - e.prompt.length)) = cs.length := by omega
    simp only [this] at g
    exact g

theorem Inv.modes (h : Inv e z N) : e.cols ≤ 9999 ∨ e.cols = 4294967295 := by
  have := h.mode
  split at this
  · exact Or.inl this
  · exact Or.inr this

theorem up_ok (h : Inv e z N) : ∃ e' z', goUp e = .ok e' ∧ Means e.prompt.length z .up z' ∧ Inv e' z' N ∧ e'.prompt = e.prompt := by
  obtain ⟨s, g⟩ := h.good
  have ho := h.older
  unfold goUp
  cases hz : z.older with
  | nil =>
    rw [hz] at ho
    cases he : e.older with
    | nil => exact ⟨_, z, rfl, by simp only [Means, hz], h.bell, rfl⟩
    | cons a l => rw [he] at ho; cases ho
  | cons o os =>
    rw [hz] at ho
    cases he : e.older with
    | nil => rw [he] at ho; cases ho
    | cons a l =>
      rw [he] at ho
      cases ho with
      | cons ha hos =>
        obtain ⟨nd, q, rn⟩ := save_ok g h.node
        obtain ⟨e', s', q', g', sm⟩ := restore_ok (e := { e with node := a, older := l, newer := nd :: e.newer }) (cs := o) ha g.wide g.short h.modes
        refine ⟨e', ⟨o, o.length, os, z.chars :: z.newer⟩, by simp only [q, ok_bind]; exact q', by simp only [Means, hz], ?_, sm.prompt⟩
        refine ⟨⟨s', g'⟩, by rw [sm.inter, sm.cols]; exact h.mode, by rw [sm.node]; exact ⟨o, ha⟩, by rw [sm.older]; exact hos,
          by rw [sm.newer]; exact Reps.cons rn h.newer, h.smallO o (by rw [hz]; simp), fun x hx => h.smallO x (by rw [hz]; exact List.mem_cons_of_mem _ hx), ?_⟩
        intro x hx
        rcases List.mem_cons.mp hx with rfl | hx
        · exact h.small
        · exact h.smallN x hx

theorem down_ok (h : Inv e z N) : ∃ e' z', goDown e = .ok e' ∧ Means e.prompt.length z .down z' ∧ Inv e' z' N ∧ e'.prompt = e.prompt := by
  obtain ⟨s, g⟩ := h.good
  have ho := h.newer
  unfold goDown
  cases hz : z.newer with
  | nil =>
    rw [hz] at ho
    cases he : e.newer with
    | nil => exact ⟨_, z, rfl, by simp only [Means, hz], h.bell, rfl⟩
    | cons a l => rw [he] at ho; cases ho
  | cons o os =>
    rw [hz] at ho
    cases he : e.newer with
    | nil => rw [he] at ho; cases ho
    | cons a l =>
      rw [he] at ho
      cases ho with
      | cons ha hos =>
        obtain ⟨nd, q, rn⟩ := save_ok g h.node
        obtain ⟨e', s', q', g', sm⟩ := restore_ok (e := { e with node := a, newer := l, older := nd :: e.older }) (cs := o) ha g.wide g.short h.modes
        refine ⟨e', ⟨o, o.length, z.chars :: z.older, os⟩, by simp only [q, ok_bind]; exact q', by simp only [Means, hz], ?_, sm.prompt⟩
        refine ⟨⟨s', g'⟩, by rw [sm.inter, sm.cols]; exact h.mode, by rw [sm.node]; exact ⟨o, ha⟩, by rw [sm.older]; exact Reps.cons rn h.older,
          by rw [sm.newer]; exact hos, h.smallN o (by rw [hz]; simp), ?_, fun x hx => h.smallN x (by rw [hz]; exact List.mem_cons_of_mem _ hx)⟩
        intro x hx
        rcases List.mem_cons.mp hx with rfl | hx
        · exact h.small
        · exact h.smallO x hx

/-- One key. -/
theorem step_ok (h : Inv e z N) {v : Ev} (hv : Legal v) (hN : N + typed [v] < 65536) :
    ∃ e' z', step e v = .ok e' ∧ Means e.prompt.length z v z' ∧ Inv e' z' (N + typed [v]) ∧ e'.prompt = e.prompt := by
  obtain ⟨s, g⟩ := h.good
  have hl := g.len
  have hle := g.le
  have hlog : e.cursor.log = z.cur := by rw [g.cur]; rfl
  have hphys : e.cursor.phys = (At z.chars z.cur).phys := by rw [g.cur]
  have mv : ∀ m, m ≤ z.chars.length → ∃ e', moveTo e (At z.chars m) = .ok e' ∧ Inv e' { z with cur := m } N ∧ e'.prompt = e.prompt := by
    intro m hm
    obtain ⟨e', s', r, g', sm⟩ := g.move hm
    exact ⟨e', r, h.next g' sm (Nat.le_refl _) h.small, sm.prompt⟩
  have dl : ∀ a c, a ≤ z.cur → z.cur ≤ c → c ≤ z.chars.length →
      ∃ e', deleteRange e (At z.chars a) (At z.chars c) = .ok e' ∧ Inv e' (z.cut a c) N ∧ e'.prompt = e.prompt := by
    intro a c h1 h2 h3
    obtain ⟨e', s', r, g', sm⟩ := delete_ok g h1 h2 h3
    exact ⟨e', r, h.next g' sm (Nat.le_refl _) (Nat.le_trans (cut_len (by omega)) h.small), sm.prompt⟩
  cases v with
  | text c =>
    simp only [typed, Nat.add_zero] at hN ⊢
    have hsm := h.small
    obtain ⟨e', s', r, g', sm⟩ := type_ok g hv (by omega)
    refine ⟨e', _, r, rfl, h.next g' sm (by omega) ?_, sm.prompt⟩
    have : z.chars.flatten.length = (z.chars.take z.cur).flatten.length + (z.chars.drop z.cur).flatten.length := by
      conv => lhs; rw [flat_split (cs := z.chars) z.cur, List.length_append]
    simp only [List.flatten_append, List.flatten_cons, List.length_append]
    omega
  | left =>
    show ∃ e' z', goLeft e = .ok e' ∧ _
    unfold goLeft
    by_cases h0 : z.cur = 0
    · rw [if_pos (by rw [hphys, h0]; rfl), check_true (by rw [hlog, h0]; rfl), ok_bind]
      refine ⟨_, z, rfl, ?_, h.bell, rfl⟩
      show z = { z with cur := z.cur - 1 }
      rw [show z.cur - 1 = z.cur by omega]
    · rw [if_neg (by rw [hphys, At.zero g.chars hle]; exact h0), g.cur, g.line]
      obtain ⟨k, hk⟩ : ∃ k, z.cur = k + 1 := ⟨z.cur - 1, by omega⟩
      rw [hk, dec_at g.chars (by omega) (by omega), ok_bind]
      obtain ⟨e', r, i, p⟩ := mv k (by omega)
      exact ⟨e', _, r, by simp only [Means, hk]; rfl, i, p⟩
  | right =>
    show ∃ e' z', goRight e = .ok e' ∧ _
    unfold goRight
    by_cases h0 : z.cur = z.chars.length
    · rw [if_pos (by rw [hlog, g.size]; omega), check_true (by rw [hlog, g.size, h0]; simp), ok_bind]
      refine ⟨_, z, rfl, ?_, h.bell, rfl⟩
      show z = { z with cur := min (z.cur + 1) z.chars.length }
      rw [Nat.min_eq_right (by omega), ← h0]
    · rw [if_neg (by rw [hlog, g.size]; omega), g.cur, g.line, inc_at g.chars (by omega) (by omega)]
      obtain ⟨e', r, i, p⟩ := mv (z.cur + 1) (by omega)
      refine ⟨e', _, r, ?_, i, p⟩
      show _ = { z with cur := min (z.cur + 1) z.chars.length }
      rw [Nat.min_eq_left (by omega)]
  | wordLeft =>
    obtain ⟨m, r, q, hm⟩ := begin_ok g
    obtain ⟨e', r', i, p⟩ := mv m (by omega)
    exact ⟨e', _, by simp only [step, r, ok_bind]; exact r', ⟨m, q, rfl⟩, i, p⟩
  | wordRight =>
    obtain ⟨m, r, q, _, hm⟩ := end_ok g
    obtain ⟨e', r', i, p⟩ := mv m hm
    exact ⟨e', _, by simp only [step, r, ok_bind]; exact r', ⟨m, q, rfl⟩, i, p⟩
  | home =>
    obtain ⟨e', r', i, p⟩ := mv 0 (by omega)
    exact ⟨e', _, r', rfl, i, p⟩
  | fin =>
    obtain ⟨e', r', i, p⟩ := mv z.chars.length (Nat.le_refl _)
    refine ⟨e', _, ?_, rfl, i, p⟩
    rw [← r', step, g.size, g.line, ← At.all]; rfl
  | up => exact up_ok h
  | down => exact down_ok h
  | backspace =>
    simp only [step]
    by_cases h0 : z.cur = 0
    · rw [if_pos (by rw [hphys, h0]; rfl), check_true (by rw [hlog, h0]; rfl), ok_bind]
      refine ⟨_, z, rfl, ?_, h.bell, rfl⟩
      show z = z.cut (z.cur - 1) z.cur
      simp only [Text.cut, h0, List.take_zero, List.nil_append, List.drop_zero, Nat.zero_sub]
      rw [← h0]
    · rw [if_neg (by rw [hphys, At.zero g.chars hle]; exact h0), g.cur, g.line]
      obtain ⟨e', r, i, p⟩ := dl (z.cur - 1) z.cur (by omega) (Nat.le_refl _) hle
      obtain ⟨k, hk⟩ : ∃ k, z.cur = k + 1 := ⟨z.cur - 1, by omega⟩
      rw [hk] at r
      rw [hk, dec_at g.chars (by omega) (by omega), ok_bind]
      exact ⟨e', _, r, rfl, i, p⟩
  | delete =>
    simp only [step]
    by_cases h0 : z.cur = z.chars.length
    · rw [if_pos (by rw [hphys, g.line, At.full g.chars hle]; exact h0)]
      refine ⟨_, z, rfl, ?_, h.bell, rfl⟩
      show z = z.cut z.cur (z.cur + 1)
      simp only [Text.cut]
      rw [List.drop_eq_nil_of_le (by omega), List.take_of_length_le (by omega), List.append_nil]
    · rw [if_neg (by rw [hphys, g.line, At.full g.chars hle]; exact h0), g.cur, g.line, inc_at g.chars (by omega) (by omega)]
      obtain ⟨e', r, i, p⟩ := dl z.cur (z.cur + 1) (Nat.le_refl _) (by omega) (by omega)
      exact ⟨e', _, r, rfl, i, p⟩
  | deleteWordLeft =>
    simp only [step]
    by_cases h0 : z.cur = 0
    · rw [if_pos (by rw [hlog]; exact h0)]
      refine ⟨_, z, rfl, ⟨0, Or.inl ⟨h0, rfl⟩, ?_⟩, h, rfl⟩
      simp only [Text.cut, h0, List.take_zero, List.nil_append, List.drop_zero]
      rw [← h0]
    · rw [if_neg (by rw [hlog]; exact h0)]
      obtain ⟨m, r, q, hm⟩ := begin_ok g
      obtain ⟨e', r', i, p⟩ := dl m z.cur hm (Nat.le_refl _) hle
      exact ⟨e', _, by rw [r, ok_bind, g.cur]; exact r', ⟨m, q, rfl⟩, i, p⟩
  | deleteWordRight =>
    simp only [step]
    by_cases h0 : z.cur = z.chars.length
    · rw [if_pos (by rw [hlog, g.size]; exact h0)]
      refine ⟨_, z, rfl, ⟨z.cur, Or.inl ⟨h0, rfl⟩, ?_⟩, h, rfl⟩
      simp only [Text.cut, List.take_append_drop]
    · rw [if_neg (by rw [hlog, g.size]; exact h0)]
      obtain ⟨m, r, q, hm, hm'⟩ := end_ok g
      obtain ⟨e', r', i, p⟩ := dl z.cur m (Nat.le_refl _) hm hm'
      exact ⟨e', _, by rw [r, ok_bind, g.cur]; exact r', ⟨m, q, rfl⟩, i, p⟩
  | killRight =>
    simp only [step]
    by_cases h0 : z.cur = z.chars.length
    · rw [if_pos (by rw [hphys, g.line, At.full g.chars hle]; exact h0)]
      refine ⟨_, z, rfl, ?_, h, rfl⟩
      show z = { z with chars := z.chars.take z.cur }
      rw [List.take_of_length_le (by omega)]
    · rw [if_neg (by rw [hphys, g.line, At.full g.chars hle]; exact h0)]
      have hcut := cut_len (cs := z.chars) (a := z.cur) (c := z.chars.length) hle
      simp only [List.drop_length, List.append_nil] at hcut
      have hat : ∀ m, m ≤ z.cur → At (z.chars.take z.cur) m = At z.chars m := by
        intro m hm; have := take_app hm hle []; rwa [List.append_nil] at this
      have g' : Good { e with line := e.line.take e.cursor.phys, lineSize := e.cursor.log } (z.chars.take z.cur) z.cur s :=
        ⟨⟨fun c hc => g.chars c (List.mem_of_mem_take hc), by show e.line.take e.cursor.phys = _; rw [g.line, hphys, take_flat],
          by show e.cursor.log = _; rw [hlog, List.length_take, Nat.min_eq_left hle], by rw [hat _ (Nat.le_refl _)]; exact g.cur,
          by rw [List.length_take, Nat.min_eq_left hle]; exact Nat.le_refl _, by rw [hat _ g.sle]; exact g.scr, g.sle,
          by have := g.big; omega, g.wide, g.short, g.cols⟩, g.last, g.seen⟩
      exact ⟨_, _, rfl, rfl, h.next (g'.emit .erase) ⟨rfl, rfl, rfl, rfl, rfl, rfl⟩ (Nat.le_refl _) (Nat.le_trans hcut h.small), rfl⟩
  | killAll =>
    simp only [step]
    by_cases h0 : z.chars.length = 0
    · rw [if_pos (by rw [g.size]; exact h0)]
      refine ⟨_, z, rfl, ?_, h, rfl⟩
      show z = { z with chars := [], cur := 0 }
      have h1 := List.length_eq_zero_iff.mp h0
      have h2 : z.cur = 0 := by omega
      rw [← h1, ← h2]
    · rw [if_neg (by rw [g.size]; exact h0)]
      have hp : Pre { e with line := [], lineSize := 0, cursor := ⟨0, 0⟩, scroll := ⟨0, 0⟩ } [] 0 0 :=
        ⟨by simp, rfl, rfl, rfl, Nat.le_refl _, rfl, Nat.le_refl _, by simp, g.wide, g.short, by
          show e.cols ≤ 9999 ∨ (e.cols = 4294967295 ∧ 0 = 0)
          have := h.modes; omega⟩
      obtain ⟨e', r, g', sm⟩ := redraw_ok hp
      rw [Nat.zero_min] at g'
      exact ⟨e', _, r, rfl, h.next g' ⟨sm.node, sm.older, sm.newer, sm.prompt, sm.inter, sm.cols⟩ (Nat.le_refl _) (by simp), sm.prompt⟩
  | refresh =>
    obtain ⟨e', r, g', sm⟩ := redraw_ok (g.emit .clear).toPre
    have hs := g.seen
    have hla := g.last
    have : min z.cur (s + ((e.emit .clear).cols - (e.emit .clear).prompt.length)) = z.cur := by
      show min z.cur (s + (e.cols - e.prompt.length)) = z.cur; omega
    rw [this] at g'
    exact ⟨e', z, r, rfl, h.next g' ((Same.emit e .clear).trans sm) (Nat.le_refl _) h.small, sm.prompt⟩
  | resize w =>
    have hw : e.prompt.length + 2 ≤ setCols e w := by
      have := g.short
      unfold setCols; split <;> omega
    have hmode : if e.inter then setCols e w ≤ 9999 else setCols e w = 4294967295 := by
      unfold setCols; split <;> omega
    have hc := g.cols
    have hm := h.mode
    have hp : Pre { e with cols := setCols e w } z.chars z.cur s :=
      ⟨g.chars, g.line, g.size, g.cur, g.le, g.scr, g.sle, g.big, hw, g.short, by
        show setCols e w ≤ 9999 ∨ (setCols e w = 4294967295 ∧ s = 0)
        split at hmode
        · exact Or.inl hmode
        · rename_i hi
          rw [if_neg hi] at hm
          exact Or.inr ⟨hmode, by omega⟩⟩
    obtain ⟨e', r, g', sm⟩ := redraw_ok hp
    refine ⟨e', { z with cur := min z.cur (s + (setCols e w - e.prompt.length)) }, r, ⟨_, Nat.min_le_left _ _, ?_, rfl⟩, ?_, sm.prompt⟩
    · intro h1 h2
      unfold setCols; split <;> omega
    · exact ⟨⟨s, g'⟩, by rw [sm.inter, sm.cols]; exact hmode, by rw [sm.node]; exact h.node, by rw [sm.older]; exact h.older, by rw [sm.newer]; exact h.newer,
        h.small, h.smallO, h.smallN⟩

theorem typed_cons (v : Ev) (vs : List Ev) : typed (v :: vs) = typed [v] + typed vs := by
  cases v <;> simp [typed]

/-- Any keys. -/
theorem steps_ok : ∀ (vs : List Ev) {e : Ed} {z : Text} {N : Nat}, Inv e z N → (∀ v ∈ vs, Legal v) → N + typed vs < 65536 →
    ∃ e' z', steps e vs = .ok e' ∧ MeansAll e.prompt.length z vs z' ∧ Inv e' z' (N + typed vs) := by
  intro vs
  induction vs with
  | nil => intro e z N h _ _; exact ⟨e, z, rfl, .nil z, h⟩
  | cons v vs ih =>
    intro e z N h hv hN
    rw [typed_cons] at hN
    obtain ⟨e1, z1, r1, m1, i1, p1⟩ := step_ok h (hv v (by simp)) (by omega)
    obtain ⟨e2, z2, r2, m2, i2⟩ := ih i1 (fun v hv' => hv v (List.mem_cons_of_mem _ hv')) (by omega)
    refine ⟨e2, z2, by rw [steps, r1, ok_bind]; exact r2, .cons m1 (p1 ▸ m2), ?_⟩
    rw [typed_cons, ← Nat.add_assoc]
    exact i2

theorem start_raw {prompt : List Nat} (hp : 1 ≤ prompt.length ∧ prompt.length ≤ 100) (inter : Bool) (w : Nat) (hist : List Node) :
    ∃ e, start prompt inter w hist = .ok e ∧ Good e [] 0 0 ∧ e.prompt = prompt ∧ e.older = hist ∧ e.newer = [] ∧ e.node = newNode [] 0 ∧
      (if e.inter then e.cols ≤ 9999 else e.cols = 4294967295) ∧ e.cols = if inter then min (max w (prompt.length + 2)) 9999 else 4294967295 := by
  generalize he : (⟨[], 0, prompt, inter, 0, 0, ⟨0, 0⟩, ⟨0, 0⟩, newNode [] 0, hist, [], []⟩ : Ed) = e0
  have h1 : e0.prompt = prompt := by rw [← he]
  have h2 : e0.inter = inter := by rw [← he]
  have h3 : e0.older = hist := by rw [← he]
  have h4 : e0.newer = [] := by rw [← he]
  have h5 : e0.node = newNode [] 0 := by rw [← he]
  have hmode : if e0.inter then setCols e0 w ≤ 9999 else setCols e0 w = 4294967295 := by
    unfold setCols; split <;> omega
  have hpre : Pre { e0 with cols := setCols e0 w } [] 0 0 := by
    refine ⟨by simp, by rw [← he]; rfl, by rw [← he]; rfl, by rw [← he]; rfl, Nat.le_refl _, by rw [← he]; rfl, Nat.le_refl _, by simp, ?_, ?_, ?_⟩
    · show e0.prompt.length + 2 ≤ setCols e0 w
      rw [← h1] at hp
      unfold setCols; split <;> omega
    · show 1 ≤ e0.prompt.length ∧ e0.prompt.length ≤ 100
      rw [h1]; exact hp
    · show setCols e0 w ≤ 9999 ∨ (setCols e0 w = 4294967295 ∧ 0 = 0)
      split at hmode
      · exact Or.inl hmode
      · exact Or.inr ⟨hmode, rfl⟩
  obtain ⟨e', r, g, sm⟩ := redraw_ok hpre
  rw [Nat.zero_min] at g
  exact ⟨e', by unfold start; rw [he]; exact r, g, by rw [sm.prompt]; exact h1, by rw [sm.older]; exact h3, by rw [sm.newer]; exact h4,
    by rw [sm.node]; exact h5, by rw [sm.inter, sm.cols]; exact hmode, by rw [sm.cols, ← h1, ← h2]; rfl⟩

theorem start_ok {prompt : List Nat} (hp : 1 ≤ prompt.length ∧ prompt.length ≤ 100) (inter : Bool) (w : Nat) {hist : List Node} {hs : List (List (List Nat))}
    (hh : Reps hist hs) {N : Nat} (hN : ∀ o ∈ hs, o.flatten.length ≤ N) :
    ∃ e, start prompt inter w hist = .ok e ∧ Inv e ⟨[], 0, hs, []⟩ N ∧ e.prompt = prompt := by
  obtain ⟨e, r, g, h1, h3, h4, h5, hmode, _⟩ := start_raw hp inter w hist
  refine ⟨e, r, ⟨⟨0, g⟩, hmode, ⟨[], ?_⟩, by rw [h3]; exact hh, by rw [h4]; exact .nil, by simp, hN, by simp⟩, h1⟩
  rw [h5]; exact newNode_rep (cs := []) (by simp) (by simp)

/-- A whole call. -/
theorem getline_ok {prompt : List Nat} (hp : 1 ≤ prompt.length ∧ prompt.length ≤ 100) (inter : Bool) (w : Nat) {hist : List Node} {hs : List (List (List Nat))}
    (hh : Reps hist hs) {N : Nat} (hN : ∀ o ∈ hs, o.flatten.length ≤ N) {vs : List Ev} (hv : ∀ v ∈ vs, Legal v)
    (hb : N + typed vs < 65536) :
    ∃ z hist', getline prompt inter w hist vs = .ok (z.chars.flatten, hist') ∧ MeansAll prompt.length ⟨[], 0, hs, []⟩ vs z ∧
      Reps hist' (if z.chars = [] then hs else z.chars :: hs) ∧ z.chars.flatten.length ≤ N + typed vs := by
  obtain ⟨e0, r0, i0, p0⟩ := start_ok hp inter w hh hN
  obtain ⟨e, z, r, m, i⟩ := steps_ok vs i0 hv hb
  obtain ⟨s, g⟩ := i.good
  rw [p0] at m
  unfold getline
  rw [r0, ok_bind, r, ok_bind, g.line, g.size]
  refine ⟨z, _, rfl, m, ?_, i.small⟩
  by_cases hz : z.chars = []
  · rw [if_pos hz, hz]; exact hh
  · have : z.chars.flatten.length ≠ 0 := by
      have := len_le g.chars
      have := List.length_pos_iff.mpr hz
      omega
    rw [if_neg hz, if_pos this]
    have q := newNode_rep g.chars g.big
    exact .cons ⟨q.bytes, q.size, q.lineSize, q.room, q.chars, q.big⟩ hh

end Verif.Line
