import Verif.Line.Spec

/-! The editor has a line of characters. -/
namespace Verif.Line

attribute [local irreducible] add32 sub32

structure Pre (e : Ed) (cs : List (List Nat)) (n s : Nat) : Prop where
  chars : ∀ c ∈ cs, IsChar c
  line : e.line = cs.flatten
  size : e.lineSize = cs.length
  cur : e.cursor = At cs n
  le : n ≤ cs.length
  scr : e.scroll = At cs s
  sle : s ≤ n
  big : cs.flatten.length < 65536
  wide : e.prompt.length + 2 ≤ e.cols
  short : 1 ≤ e.prompt.length ∧ e.prompt.length ≤ 100
  cols : e.cols ≤ 9999 ∨ (e.cols = 4294967295 ∧ s = 0)

structure Good (e : Ed) (cs : List (List Nat)) (n s : Nat) : Prop extends Pre e cs n s where
  last : e.last = s + (e.cols - e.prompt.length)
  seen : n ≤ e.last

/-- What moving and drawing keep. -/
structure Same (e e' : Ed) : Prop where
  node : e'.node = e.node
  older : e'.older = e.older
  newer : e'.newer = e.newer
  prompt : e'.prompt = e.prompt
  inter : e'.inter = e.inter
  cols : e'.cols = e.cols

theorem Same.trans {a b c : Ed} (h : Same a b) (k : Same b c) : Same a c :=
  ⟨k.node.trans h.node, k.older.trans h.older, k.newer.trans h.newer, k.prompt.trans h.prompt, k.inter.trans h.inter, k.cols.trans h.cols⟩

theorem Same.refl (e : Ed) : Same e e := ⟨rfl, rfl, rfl, rfl, rfl, rfl⟩

variable {e : Ed} {cs : List (List Nat)} {n s : Nat}

theorem Pre.len (h : Pre e cs n s) : cs.length < 65536 := by
  have := len_le h.chars; have := h.big; omega

theorem ok_bind {α β : Type} (a : α) (f : α → Except Err β) : (Except.ok a >>= f) = f a := rfl

theorem check_true {b : Bool} (h : b = true) : check b = .ok () := by simp [check, h]

theorem Pre.emit (h : Pre e cs n s) (t : Term) : Pre (e.emit t) cs n s :=
  ⟨h.chars, h.line, h.size, h.cur, h.le, h.scr, h.sle, h.big, h.wide, h.short, h.cols⟩

theorem Good.emit (h : Good e cs n s) (t : Term) : Good (e.emit t) cs n s := { h.toPre.emit t with last := h.last, seen := h.seen }

theorem Same.emit (e : Ed) (t : Term) : Same e (e.emit t) := ⟨rfl, rfl, rfl, rfl, rfl, rfl⟩

theorem redraw_ok (h : Pre e cs n s) :
    ∃ e', redraw e = .ok e' ∧ Good e' cs (min n (s + (e.cols - e.prompt.length))) s ∧ Same e e' := by
  have hl := h.len
  have hw := h.wide
  have hsh := h.short
  have hc := h.cols
  have hle := h.le
  have hsl := h.sle
  have hnum : add32 (sub32 e.cols e.prompt.length) 1 = e.cols - e.prompt.length + 1 := by unfold add32 sub32; omega
  have hlast : sub32 (add32 s (e.cols - e.prompt.length + 1)) 1 = s + (e.cols - e.prompt.length) := by
    unfold add32 sub32; omega
  have hcur1 : e.cursor.log = n := by rw [h.cur]; rfl
  have hcur2 : e.cursor.phys = (At cs n).phys := by rw [h.cur]
  have hscr1 : e.scroll.log = s := by rw [h.scr]; rfl
  have hscr2 : e.scroll.phys = (At cs s).phys := by rw [h.scr]
  have c1 : check (decide (e.cursor.log ≤ e.lineSize)) = .ok () := check_true (by rw [hcur1, h.size]; exact decide_eq_true h.le)
  have c2 : check (decide (e.cursor.phys ≤ e.line.length)) = .ok () := check_true (by rw [hcur2, h.line]; exact decide_eq_true (At.le n))
  have c3 : check (decide (e.cursor.log ≥ e.scroll.log)) = .ok () := check_true (by rw [hcur1, hscr1]; exact decide_eq_true hsl)
  have c4 : check (decide (e.cursor.phys ≥ e.scroll.phys)) = .ok () := check_true (by rw [hcur2, hscr2]; exact decide_eq_true (At.mono hsl))
  have hd : decTo e.line (s + (e.cols - e.prompt.length)) e.cursor = .ok (At cs (min n (s + (e.cols - e.prompt.length)))) := by
    rw [h.cur, h.line]; exact decTo_at h.chars (by omega) _ h.le
  generalize hm : min n (s + (e.cols - e.prompt.length)) = m at hd ⊢
  have hdr : e.line.drop e.scroll.phys = (cs.drop s).flatten := by rw [h.line, hscr2, drop_flat]
  have hchars' : ∀ c ∈ cs.drop s, IsChar c := fun c hc => h.chars c (List.mem_of_mem_drop hc)
  have hdraw := draw_flat (cs.drop s) hchars' (cs.drop s).flatten.length (e.cols - e.prompt.length + 1) (Nat.le_refl _)
  have hgood : ∀ o, Good { e with last := s + (e.cols - e.prompt.length), cursor := At cs m, out := o } cs m s := fun o =>
    { chars := h.chars, line := h.line, size := h.size, cur := rfl, le := by omega, scr := h.scr, sle := by omega, big := h.big, wide := h.wide,
      short := h.short, cols := h.cols, last := rfl, seen := by show m ≤ s + (e.cols - e.prompt.length); omega }
  have hsame : ∀ o, Same e { e with last := s + (e.cols - e.prompt.length), cursor := At cs m, out := o } := fun o => ⟨rfl, rfl, rfl, rfl, rfl, rfl⟩
  have hrel : sub32 m s = m - s := by unfold sub32; omega
  have hrel2 : m - s ≤ min (e.cols - e.prompt.length + 1) (cs.drop s).length := by rw [List.length_drop]; omega
  have c5 := check_true (decide_eq_true hrel2)
  have ha : ∃ o, drawn e (At cs m).log (cs.drop s).flatten
      (min (e.cols - e.prompt.length + 1) (cs.drop s).length, ((cs.drop s).take (e.cols - e.prompt.length + 1)).flatten.length,
        e.cols - e.prompt.length + 1 - (cs.drop s).length) = .ok o := by
    unfold drawn
    simp only [hscr1, show (At cs m).log = m from rfl, hrel, c5, ok_bind]
    split <;> exact ⟨_, rfl⟩
  obtain ⟨o, ha⟩ := ha
  unfold redraw
  rw [hnum, c1, c2, c3, c4, hscr1]
  simp only [ok_bind, hlast, hd, hdr, hdraw, ha]
  exact ⟨_, rfl, hgood _, hsame _⟩

theorem move_ok (h : Pre e cs n s) (hlast : e.last = s + (e.cols - e.prompt.length)) {m : Nat} (hm : m ≤ cs.length) (hseen : n ≤ e.last) :
    ∃ e' s', moveTo e (At cs m) = .ok e' ∧ Good e' cs m s' ∧ Same e e' := by
  have hl := h.len
  have hw := h.wide
  have hsh := h.short
  have hc := h.cols
  have hle := h.le
  have hsl := h.sle
  have hcur1 : e.cursor.log = n := by rw [h.cur]; rfl
  have hscr1 : e.scroll.log = s := by rw [h.scr]; rfl
  unfold moveTo
  simp only [hcur1, hscr1, show (At cs m).log = m from rfl]
  by_cases h1 : m = n
  · subst h1
    rw [if_pos rfl]
    exact ⟨e, s, rfl, { h with last := hlast, seen := hseen }, Same.refl e⟩
  · rw [if_neg h1]
    by_cases h2 : m ≥ s ∧ m ≤ e.last
    · rw [if_pos h2]
      exact ⟨_, s, rfl, ⟨⟨h.chars, h.line, h.size, rfl, hm, h.scr, h2.1, h.big, h.wide, h.short, h.cols⟩, hlast, h2.2⟩, ⟨rfl, rfl, rfl, rfl, rfl, rfl⟩⟩
    · rw [if_neg h2]
      by_cases h3 : m > s
      · have hu : add32 (sub32 m e.cols) e.prompt.length = m - (e.cols - e.prompt.length) := by unfold add32 sub32; omega
        rw [if_pos h3, hu, h.line, decTo_at h.chars (by omega) _ hm]
        simp only [ok_bind]
        have hp : Pre { e with cursor := At cs m, scroll := At cs (min m (m - (e.cols - e.prompt.length))) } cs m (min m (m - (e.cols - e.prompt.length))) :=
          ⟨h.chars, h.line, h.size, rfl, hm, rfl, by omega, h.big, h.wide, h.short, Or.inl (show e.cols ≤ 9999 by omega)⟩
        obtain ⟨e', r, g, sm⟩ := redraw_ok hp
        refine ⟨e', min m (m - (e.cols - e.prompt.length)), by rw [← h.line]; exact r, ?_, ⟨sm.node, sm.older, sm.newer, sm.prompt, sm.inter, sm.cols⟩⟩
        have : min m (min m (m - (e.cols - e.prompt.length)) + (e.cols - e.prompt.length)) = m := by omega
        simp only [this] at g
        exact g
      · rw [if_neg h3]
        simp only [ok_bind]
        have hp : Pre { e with cursor := At cs m, scroll := At cs m } cs m m :=
          ⟨h.chars, h.line, h.size, rfl, hm, rfl, by omega, h.big, h.wide, h.short, show e.cols ≤ 9999 ∨ (e.cols = 4294967295 ∧ m = 0) by omega⟩
        obtain ⟨e', r, g, sm⟩ := redraw_ok hp
        refine ⟨e', m, r, ?_, ⟨sm.node, sm.older, sm.newer, sm.prompt, sm.inter, sm.cols⟩⟩
        have : min m (m + (e.cols - e.prompt.length)) = m := by omega
        simp only [this] at g
        exact g

theorem Good.move (h : Good e cs n s) {m : Nat} (hm : m ≤ cs.length) :
    ∃ e' s', moveTo e (At cs m) = .ok e' ∧ Good e' cs m s' ∧ Same e e' := move_ok h.toPre h.last hm h.seen

/-! Typing a character. -/

theorem take_app {m : Nat} (hm : m ≤ n) (hn : n ≤ cs.length) (x : List (List Nat)) : At (cs.take n ++ x) m = At cs m := by
  simp only [At]
  rw [List.take_append_of_le_length (by rw [List.length_take]; omega), List.take_take, Nat.min_eq_left hm]

theorem insert_last (h : Good e cs n s) {c p : List Nat} {b : Nat} (hc : IsChar c) (hpb : c = p ++ [b])
    (hbig : cs.flatten.length + c.length < 65536) :
    ∃ e' s', insert { e with line := (cs.take n).flatten ++ p ++ (cs.drop n).flatten, cursor := ⟨n, (cs.take n).flatten.length + p.length⟩ } b = .ok e' ∧
      Good e' (cs.take n ++ c :: cs.drop n) (n + 1) s' ∧ Same e e' := by
  have hl := h.len
  have hle := h.le
  have hsl := h.sle
  have hw := h.wide
  have hsh := h.short
  have hcols := h.cols
  have hlast := h.last
  have hseen := h.seen
  generalize hcs : cs.take n ++ c :: cs.drop n = cs'
  have hflat : cs'.flatten = (cs.take n).flatten ++ p ++ b :: (cs.drop n).flatten := by
    rw [← hcs, hpb]; simp
  have hlen : cs'.length = cs.length + 1 := by rw [← hcs]; simp; omega
  have hflen : cs'.flatten.length = cs.flatten.length + c.length := by
    rw [hflat, flat_split (cs := cs) n, hpb]; simp; omega
  have hchars : ∀ x ∈ cs', IsChar x := by
    intro x hx
    rw [← hcs] at hx
    rcases List.mem_append.mp hx with hx | hx
    · exact h.chars x (List.mem_of_mem_take hx)
    · rcases List.mem_cons.mp hx with rfl | hx
      · exact hc
      · exact h.chars x (List.mem_of_mem_drop hx)
  have hat : ∀ m, m ≤ n → At cs' m = At cs m := by
    intro m hm; rw [← hcs]; exact take_app hm hle _
  have hat1 : At cs' (n + 1) = ⟨n + 1, (cs.take n).flatten.length + p.length + 1⟩ := by
    have : cs'.take (n + 1) = cs.take n ++ [c] := by
      rw [← hcs, List.take_append, List.take_of_length_le (by rw [List.length_take]; omega)]
      have : n + 1 - (cs.take n).length = 1 := by rw [List.length_take]; omega
      rw [this]; rfl
    simp only [At, this, List.flatten_append, List.length_append, List.flatten_cons, List.flatten_nil, List.append_nil, hpb]
    simp [Nat.add_assoc]
  have hfin : finished cs'.flatten ((cs.take n).flatten.length + p.length) 0 = .ok true := by
    obtain ⟨b0, ts, e1, t1, t2, t3⟩ := hc.parts
    have := finished_tails (cs.take n).flatten b0 t1 ts (cs.drop n).flatten t2 ts.length 0 (Nat.le_refl _)
    have hlp : p.length = ts.length := by
      have := congrArg List.length (hpb.symm.trans e1); simp at this; exact this
    have e2 : cs'.flatten = (cs.take n).flatten ++ b0 :: ts ++ (cs.drop n).flatten := by
      rw [← hcs, e1]; simp
    rw [e2, hlp, this]
    congr 1
    exact decide_eq_true (by omega)
  have hline : ((cs.take n).flatten ++ p ++ (cs.drop n).flatten).take ((cs.take n).flatten.length + p.length) ++
      b :: ((cs.take n).flatten ++ p ++ (cs.drop n).flatten).drop ((cs.take n).flatten.length + p.length) = cs'.flatten := by
    rw [hflat, List.take_append_of_le_length (by simp), List.take_of_length_le (by simp), List.drop_append_of_le_length (by simp),
      List.drop_eq_nil_of_le (by simp)]
    simp
  have hc1 : check (decide ((cs.take n).flatten.length + p.length ≤ ((cs.take n).flatten ++ p ++ (cs.drop n).flatten).length)) = .ok () :=
    check_true (decide_eq_true (by simp))
  have ha1 : add32 n 1 = n + 1 := by unfold add32; omega
  have ha2 : add32 e.lineSize 1 = cs'.length := by rw [h.size, hlen]; unfold add32; omega
  unfold insert
  simp only [hc1, ok_bind, hline, hfin, Bool.not_true, Bool.false_eq_true, if_false, ha1, ha2]
  by_cases h1 : n + 1 > e.last
  · rw [if_pos h1]
    have hinc : inc cs'.flatten e.scroll = At cs' (s + 1) := by
      rw [h.scr, ← hat s hsl]; exact inc_at hchars (by omega) (by omega)
    rw [hinc]
    have hp : Pre { e with line := cs'.flatten, lineSize := cs'.length, cursor := ⟨n + 1, (cs.take n).flatten.length + p.length + 1⟩, scroll := At cs' (s + 1) }
        cs' (n + 1) (s + 1) :=
      ⟨hchars, rfl, rfl, hat1.symm, by omega, rfl, by omega, by omega, h.wide, h.short, Or.inl (show e.cols ≤ 9999 by omega)⟩
    obtain ⟨e', r, g, sm⟩ := redraw_ok hp
    refine ⟨e', s + 1, r, ?_, ⟨sm.node, sm.older, sm.newer, sm.prompt, sm.inter, sm.cols⟩⟩
    have : min (n + 1) (s + 1 + (e.cols - e.prompt.length)) = n + 1 := by omega
    simp only [this] at g
    exact g
  · rw [if_neg h1]
    have hp : Pre { e with line := cs'.flatten, lineSize := cs'.length, cursor := ⟨n + 1, (cs.take n).flatten.length + p.length + 1⟩ } cs' (n + 1) s :=
      ⟨hchars, rfl, rfl, hat1.symm, by omega, by rw [hat s hsl]; exact h.scr, by omega, by omega, h.wide, h.short, h.cols⟩
    split
    · obtain ⟨e', r, g, sm⟩ := redraw_ok hp
      refine ⟨e', s, r, ?_, ⟨sm.node, sm.older, sm.newer, sm.prompt, sm.inter, sm.cols⟩⟩
      have : min (n + 1) (s + (e.cols - e.prompt.length)) = n + 1 := by omega
      simp only [this] at g
      exact g
    · have g : Good _ cs' (n + 1) s := { hp with last := h.last, seen := by show n + 1 ≤ e.last; omega }
      exact ⟨_, s, rfl, g.emit _, ⟨rfl, rfl, rfl, rfl, rfl, rfl⟩⟩

theorem insert_part (h : Good e cs n s) {c p q : List Nat} {b : Nat} (hc : IsChar c) (hpb : c = p ++ b :: q) (hq : q ≠ []) :
    insert { e with line := (cs.take n).flatten ++ p ++ (cs.drop n).flatten, cursor := ⟨n, (cs.take n).flatten.length + p.length⟩ } b =
      .ok { e with line := (cs.take n).flatten ++ (p ++ [b]) ++ (cs.drop n).flatten, cursor := ⟨n, (cs.take n).flatten.length + (p ++ [b]).length⟩ } := by
  have hfin : finished ((cs.take n).flatten ++ (p ++ [b]) ++ (cs.drop n).flatten) ((cs.take n).flatten.length + p.length) 0 = .ok false := by
    obtain ⟨b0, ts, e1, t1, t2, t3⟩ := hc.parts
    obtain ⟨ts1, e2, e3, e4⟩ : ∃ ts1, p ++ [b] = b0 :: ts1 ∧ ts1.length = p.length ∧ ∀ t ∈ ts1, t ∈ ts := by
      cases p with
      | nil => simp at hpb; rw [e1] at hpb; injection hpb with a1 a2; exact ⟨[], by simp [a1], rfl, by simp⟩
      | cons p0 ps =>
        rw [e1] at hpb; simp at hpb
        refine ⟨ps ++ [b], by simp [hpb.1], by simp, ?_⟩
        intro t ht
        rw [hpb.2]
        simp at ht ⊢
        rcases ht with ht | ht
        · exact Or.inl ht
        · exact Or.inr (Or.inl ht)
    have hlen : p.length + 1 < ts.length + 1 := by
      have := congrArg List.length (hpb.symm.trans e1)
      simp at this
      have := List.length_pos_iff.mpr hq
      omega
    have := finished_tails (cs.take n).flatten b0 t1 ts1 (cs.drop n).flatten (fun t ht => t2 t (e4 t ht)) ts1.length 0 (Nat.le_refl _)
    rw [e2, ← e3, this]
    congr 1
    exact decide_eq_false (by omega)
  have hline : ((cs.take n).flatten ++ p ++ (cs.drop n).flatten).take ((cs.take n).flatten.length + p.length) ++
      b :: ((cs.take n).flatten ++ p ++ (cs.drop n).flatten).drop ((cs.take n).flatten.length + p.length) =
      (cs.take n).flatten ++ (p ++ [b]) ++ (cs.drop n).flatten := by
    rw [List.take_append_of_le_length (by simp), List.take_of_length_le (by simp), List.drop_append_of_le_length (by simp),
      List.drop_eq_nil_of_le (by simp)]
    simp
  have hc1 : check (decide ((cs.take n).flatten.length + p.length ≤ ((cs.take n).flatten ++ p ++ (cs.drop n).flatten).length)) = .ok () :=
    check_true (decide_eq_true (by simp))
  unfold insert
  simp only [hc1, ok_bind, hline, hfin, Bool.not_false, if_true]
  simp [Nat.add_assoc]

theorem insert_all (h : Good e cs n s) {c : List Nat} (hc : IsChar c) (hbig : cs.flatten.length + c.length < 65536) :
    ∀ (q p : List Nat), c = p ++ q → q ≠ [] →
    ∃ e' s', insertAll { e with line := (cs.take n).flatten ++ p ++ (cs.drop n).flatten, cursor := ⟨n, (cs.take n).flatten.length + p.length⟩ } q = .ok e' ∧
      Good e' (cs.take n ++ c :: cs.drop n) (n + 1) s' ∧ Same e e' := by
  intro q
  induction q with
  | nil => intro p _ hq; exact absurd rfl hq
  | cons b q ih =>
    intro p hp _
    by_cases hq : q = []
    · subst hq
      obtain ⟨e', s', r, g, sm⟩ := insert_last h hc hp hbig
      exact ⟨e', s', by rw [insertAll, r, ok_bind]; rfl, g, sm⟩
    · obtain ⟨e', s', r, g, sm⟩ := ih (p ++ [b]) (by rw [hp]; simp) hq
      exact ⟨e', s', by rw [insertAll, insert_part h hc hp hq, ok_bind]; exact r, g, sm⟩

theorem type_ok (h : Good e cs n s) {c : List Nat} (hc : IsChar c) (hbig : cs.flatten.length + c.length < 65536) :
    ∃ e' s', insertAll e c = .ok e' ∧ Good e' (cs.take n ++ c :: cs.drop n) (n + 1) s' ∧ Same e e' := by
  have := insert_all h hc hbig c [] rfl (by have := hc.pos; intro h0; rw [h0] at this; simp at this)
  have he : { e with line := (cs.take n).flatten ++ [] ++ (cs.drop n).flatten, cursor := ⟨n, (cs.take n).flatten.length + ([] : List Nat).length⟩ } = e := by
    have h1 : (cs.take n).flatten ++ [] ++ (cs.drop n).flatten = e.line := by rw [h.line, flat_split (cs := cs) n]; simp
    have h2 : (⟨n, (cs.take n).flatten.length + ([] : List Nat).length⟩ : Pos) = e.cursor := by rw [h.cur]; rfl
    rw [h1, h2]
  rw [he] at this
  exact this

/-! Words. -/

theorem isWord_table : ∀ b, b < 256 → isWord b = wordBytes.contains b := by decide +kernel

theorem char_type (h : ∀ c ∈ cs, IsChar c) {m : Nat} (hm : m < cs.length) : charType cs.flatten (At cs m).phys = .ok (wordAt cs m) := by
  obtain ⟨b, ts, e1, _, _, _, _, hd⟩ := split_at h hm
  have hf : cs.flatten = (cs.take m).flatten ++ b :: (ts ++ (cs.drop (m + 1)).flatten) := by
    rw [flat_split (cs := cs) m, hd]; simp
  have hg : get cs.flatten (At cs m).phys = .ok b := by
    have := get_app (cs.take m).flatten b (ts ++ (cs.drop (m + 1)).flatten)
    rw [← hf] at this; exact this
  have hlt : (At cs m).phys < cs.flatten.length := by rw [hf]; simp [At]
  unfold charType
  rw [check_true (decide_eq_true hlt), ok_bind, hg, ok_bind]
  have hb : b < 256 := by
    obtain ⟨b', ts', h1, _, h2⟩ := h _ (List.mem_of_getElem? e1)
    injection h1 with h1 _
    omega
  rw [isWord_table b hb]
  simp [wordAt, e1]

theorem trans_at (h : ∀ c ∈ cs, IsChar c) {m : Nat} (hm : m + 1 < cs.length) :
    transition cs.flatten (At cs m).phys (At cs (m + 1)).phys =
      .ok (if wordAt cs m = wordAt cs (m + 1) then none else some (wordAt cs (m + 1))) := by
  have h1 := At.lt h (m := m) (n := m + 1) (by omega) (by omega)
  have h2 : (At cs (m + 1)).phys < cs.flatten.length := by
    rw [← At.all]; exact At.lt h hm (Nat.le_refl _)
  unfold transition
  rw [check_true (decide_eq_true h1), ok_bind, char_type h (by omega), ok_bind, if_pos h2, char_type h hm, ok_bind]

theorem begin_loop (h : ∀ c ∈ cs, IsChar c) (hb : cs.length < 65536) : ∀ (m f : Nat), m < cs.length → m < f →
    ∃ m', beginLoop cs.flatten f (At cs m) = .ok (At cs m') ∧ m' ≤ m ∧ Begins cs m' ∧ ∀ j, m' < j → j ≤ m → ¬ Begins cs j := by
  intro m
  induction m with
  | zero =>
    intro f _ hf
    obtain ⟨f, rfl⟩ : ∃ g, f = g + 1 := ⟨f - 1, by omega⟩
    exact ⟨0, by rw [beginLoop, if_pos (show (At cs 0).log = 0 from rfl)], Nat.le_refl _, Or.inl rfl, fun j h1 h2 => absurd h1 (by omega)⟩
  | succ m ih =>
    intro f hm hf
    obtain ⟨f, rfl⟩ : ∃ g, f = g + 1 := ⟨f - 1, by omega⟩
    rw [beginLoop, if_neg (show (At cs (m + 1)).log ≠ 0 from Nat.succ_ne_zero m), dec_at h (by omega) (by omega), ok_bind, trans_at h hm, ok_bind]
    by_cases hB : wordAt cs (m + 1) = true ∧ wordAt cs m = false
    · rw [hB.1, hB.2]
      exact ⟨m + 1, rfl, Nat.le_refl _, Or.inr ⟨hB.1, hB.2⟩, fun j h1 h2 => absurd h1 (by omega)⟩
    · obtain ⟨m', r, h1, h2, h3⟩ := ih f (by omega) (by omega)
      refine ⟨m', ?_, by omega, h2, ?_⟩
      · rw [if_neg, r]
        cases ha : wordAt cs (m + 1) <;> cases hb : wordAt cs m <;> simp [ha, hb] at hB ⊢
      · intro j j1 j2
        by_cases hj : j = m + 1
        · subst hj
          rintro (h0 | h0)
          · omega
          · exact hB h0
        · exact h3 j j1 (by omega)

theorem end_loop (h : ∀ c ∈ cs, IsChar c) (hb : cs.length < 65536) : ∀ (f k : Nat), k < cs.length → cs.length - k ≤ f →
    ∃ m, endLoop cs.flatten cs.length f (At cs k) = .ok (At cs m) ∧ k < m ∧ m ≤ cs.length ∧ Ends cs m ∧ ∀ j, k < j → j < m → ¬ Ends cs j := by
  intro f
  induction f with
  | zero => intro k hk hf; omega
  | succ f ih =>
    intro k hk hf
    rw [endLoop]
    simp only [inc_at h hk (by omega), show (At cs (k + 1)).log = k + 1 from rfl]
    by_cases h1 : k + 1 < cs.length
    · rw [if_pos h1, trans_at h h1, ok_bind]
      by_cases hE : wordAt cs (k + 1) = false ∧ wordAt cs k = true
      · rw [hE.1, hE.2]
        exact ⟨k + 1, rfl, by omega, by omega, Or.inr ⟨hE.1, hE.2⟩, fun j h1 h2 => absurd h1 (by omega)⟩
      · obtain ⟨m, r, g1, g2, g3, g4⟩ := ih (k + 1) h1 (by omega)
        refine ⟨m, ?_, by omega, g2, g3, ?_⟩
        · rw [if_neg, r]
          cases ha : wordAt cs (k + 1) <;> cases hb : wordAt cs k <;> simp [ha, hb] at hE ⊢
        · intro j j1 j2
          by_cases hj : j = k + 1
          · subst hj
            rintro (h0 | h0)
            · omega
            · exact hE h0
          · exact g4 j (by omega) j2
    · rw [if_neg h1]
      exact ⟨k + 1, rfl, by omega, by omega, Or.inl (by omega), fun j h1 h2 => absurd h1 (by omega)⟩

theorem begin_ok (h : Good e cs n s) : ∃ m, wordBegin e = .ok (At cs m) ∧ NearestLeft cs n m ∧ m ≤ n := by
  have hl := h.len
  have hle := h.le
  have hc : e.cursor.log = n := by rw [h.cur]; rfl
  unfold wordBegin
  rw [hc]
  by_cases h0 : n = 0
  · rw [if_neg (by omega)]
    exact ⟨0, by rw [h.cur, h0], Or.inl ⟨h0, rfl⟩, by omega⟩
  · rw [if_pos h0]
    obtain ⟨k, rfl⟩ : ∃ k, n = k + 1 := ⟨n - 1, by omega⟩
    obtain ⟨m, r, g1, g2, g3⟩ := begin_loop h.chars hl k (k + 1) (by omega) (by omega)
    refine ⟨m, ?_, Or.inr ⟨by omega, g2, fun j j1 j2 => g3 j j1 (by omega)⟩, by omega⟩
    rw [h.line, h.cur, dec_at h.chars (by omega) (by omega), ok_bind]
    exact r

theorem end_ok (h : Good e cs n s) : ∃ m, wordEnd e = .ok (At cs m) ∧ NearestRight cs n m ∧ n ≤ m ∧ m ≤ cs.length := by
  have hl := h.len
  have hle := h.le
  have hc : e.cursor.log = n := by rw [h.cur]; rfl
  unfold wordEnd
  rw [hc, h.size]
  by_cases h0 : n < cs.length
  · rw [if_pos h0]
    obtain ⟨m, r, g1, g2, g3, g4⟩ := end_loop h.chars hl (cs.length - n) n h0 (Nat.le_refl _)
    exact ⟨m, by rw [h.line, h.cur]; exact r, Or.inr ⟨g1, g2, g3, g4⟩, by omega, g2⟩
  · rw [if_neg h0]
    exact ⟨n, by rw [h.cur], Or.inl ⟨by omega, rfl⟩, Nat.le_refl _, hle⟩

/-! Deleting. -/

theorem delete_ok (h : Good e cs n s) {a c : Nat} (han : a ≤ n) (hnc : n ≤ c) (hc : c ≤ cs.length) :
    ∃ e' s', deleteRange e (At cs a) (At cs c) = .ok e' ∧ Good e' (cs.take a ++ cs.drop c) a s' ∧ Same e e' := by
  have hl := h.len
  have hle := h.le
  have hsl := h.sle
  have hw := h.wide
  have hsh := h.short
  have hcols := h.cols
  have hlast := h.last
  have hseen := h.seen
  have hck : check (decide (a ≤ c)) = .ok () := check_true (decide_eq_true (by omega))
  unfold deleteRange
  simp only [show (At cs a).log = a from rfl, show (At cs c).log = c from rfl, hck, ok_bind]
  by_cases h0 : c - a = 0
  · have : a = n := by omega
    subst this
    have : c = a := by omega
    subst this
    rw [if_pos h0, List.take_append_drop]
    exact h.move hc
  · rw [if_neg h0]
    generalize hcs : cs.take a ++ cs.drop c = cs'
    have hflat : cs'.flatten = (cs.take a).flatten ++ (cs.drop c).flatten := by rw [← hcs]; simp
    have hmono := At.mono (cs := cs) (m := a) (n := c) (by omega)
    have hphys := At.le (cs := cs) c
    have hdl : (cs.drop c).flatten.length = cs.flatten.length - (At cs c).phys := by rw [← drop_flat, List.length_drop]
    have htl : (cs.take a).flatten.length = (At cs a).phys := rfl
    have hline : (if c < e.lineSize then e.line.take (At cs a).phys ++ e.line.drop (At cs c).phys ++
          e.line.drop ((At cs a).phys + (e.line.length - (At cs c).phys)) else e.line).take (e.line.length - ((At cs c).phys - (At cs a).phys)) =
        cs'.flatten := by
      rw [h.size, h.line, take_flat, drop_flat, hflat]
      split
      · rw [List.take_append_of_le_length (by rw [List.length_append, hdl, htl]; omega), List.take_of_length_le (by rw [List.length_append, hdl, htl]; omega)]
      · have : c = cs.length := by omega
        have e1 : cs.flatten.length - ((At cs c).phys - (At cs a).phys) = (At cs a).phys := by rw [this, At.all] at *; omega
        rw [e1, take_flat, this]
        simp
    have hlen : cs'.length = cs.length - (c - a) := by rw [← hcs]; simp; omega
    have hsz : sub32 e.lineSize (c - a) = cs'.length := by rw [h.size, hlen]; unfold sub32; omega
    have hchars : ∀ x ∈ cs', IsChar x := by
      intro x hx
      rw [← hcs] at hx
      rcases List.mem_append.mp hx with hx | hx
      · exact h.chars x (List.mem_of_mem_take hx)
      · exact h.chars x (List.mem_of_mem_drop hx)
    have hat : ∀ m, m ≤ a → At cs' m = At cs m := by
      intro m hm; rw [← hcs]; exact take_app hm (by omega) _
    have hbig : cs'.flatten.length < 65536 := by
      have := h.big
      rw [hflat, List.length_append, hdl, htl]; omega
    have hscr1 : e.scroll.log = s := by rw [h.scr]; rfl
    have hcur1 : e.cursor.log = n := by rw [h.cur]; rfl
    rw [hline, hsz, hscr1]
    by_cases h1 : a ≥ s ∧ a ≤ e.last
    · rw [if_pos h1]
      have hp : Pre { e with line := cs'.flatten, lineSize := cs'.length, cursor := At cs a } cs' a s :=
        ⟨hchars, rfl, rfl, (hat a (Nat.le_refl _)).symm, by omega, by rw [hat s h1.1]; exact h.scr, h1.1, hbig, h.wide, h.short, h.cols⟩
      obtain ⟨e', r, g, sm⟩ := redraw_ok hp
      refine ⟨e', s, r, ?_, ⟨sm.node, sm.older, sm.newer, sm.prompt, sm.inter, sm.cols⟩⟩
      have : min a (s + (e.cols - e.prompt.length)) = a := by omega
      simp only [this] at g
      exact g
    · rw [if_neg h1]
      have hp : Pre { e with line := cs'.flatten, lineSize := cs'.length, cursor := At cs a, scroll := At cs a } cs' a a :=
        ⟨hchars, rfl, rfl, (hat a (Nat.le_refl _)).symm, by omega, (hat a (Nat.le_refl _)).symm, Nat.le_refl _, hbig, h.wide, h.short,
          show e.cols ≤ 9999 ∨ (e.cols = 4294967295 ∧ a = 0) by omega⟩
      obtain ⟨e', r, g, sm⟩ := redraw_ok hp
      refine ⟨e', a, ?_, ?_, ⟨sm.node, sm.older, sm.newer, sm.prompt, sm.inter, sm.cols⟩⟩
      · unfold moveTo
        simp only [show (At cs a).log = a from rfl, hscr1, hcur1]
        rw [if_neg (by omega), if_neg h1, if_neg (by omega), ok_bind]
        exact r
      · have : min a (a + (e.cols - e.prompt.length)) = a := by omega
        simp only [this] at g
        exact g

end Verif.Line
