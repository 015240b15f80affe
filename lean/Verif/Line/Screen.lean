import Verif.Line.Steps

/-!
What the editor shows: a row of a terminal, in which each character takes one column.  This is the behaviour of a VT100 and of the terminals which
follow it, not code in /repo: after a character is written in the last column, the cursor stays there until the next character, which goes to the
next row.
-/
namespace Verif.Line

attribute [local irreducible] add32 sub32

structure Scr where
  row : List (List Nat)
  col : Nat
  /-- the next character goes to the next row -/
  wrap : Bool
  /-- something was written in another row -/
  lost : Bool
  deriving DecidableEq, Repr

def blank : List Nat := [32]

def tailByte (b : Nat) : Bool := decide (128 ≤ b ∧ b < 192)

/-- The characters among bytes. -/
def cells : Nat → List Nat → List (List Nat)
  | 0, _ => []
  | _ + 1, [] => []
  | f + 1, b :: bs => (b :: bs.takeWhile tailByte) :: cells f (bs.dropWhile tailByte)

def put (s : Scr) (c : List Nat) : Scr :=
  if c = [13] then { s with col := 0, wrap := false }
  else if s.wrap then { s with lost := true }
  else
    { s with row := s.row.set s.col c, col := if s.col + 1 < s.row.length then s.col + 1 else s.col, wrap := decide (s.row.length ≤ s.col + 1) }

def display (s : Scr) : Term → Scr
  | .write bs => (cells bs.length bs).foldl put s
  | .erase => { s with row := s.row.take s.col ++ List.replicate (s.row.length - s.col) blank }
  | .left n => { s with col := s.col - n, wrap := false }
  | .right n => { s with col := min (s.col + n) (s.row.length - 1), wrap := false }
  | .bell => s
  | .clear => { s with row := List.replicate s.row.length blank, col := 0, wrap := false }

def displayAll (s : Scr) (ts : List Term) : Scr := ts.foldl display s

/-- The prompt and the text are in the row, and the cursor of the terminal is at character `n`.  `a` is the visible character of the prompt. -/
structure Shows (a w : Nat) (s : Scr) (cs : List (List Nat)) (n : Nat) : Prop where
  row : s.row = [[a], [32]] ++ cs ++ List.replicate (w - 2 - cs.length) blank
  col : s.col = 2 + n
  wrap : s.wrap = false
  lost : s.lost = false

theorem IsChar.bytes {c : List Nat} (h : IsChar c) : ∃ b ts, c = b :: ts ∧ tailByte b = false ∧ (∀ t ∈ ts, tailByte t = true) ∧ True := by
  obtain ⟨b, ts, e, h1, h2⟩ := h
  exact ⟨b, ts, e, decide_eq_false (by omega), fun t ht => decide_eq_true (h1 t ht), trivial⟩

theorem cells_flat : ∀ (cs : List (List Nat)), (∀ c ∈ cs, IsChar c) → ∀ f, cs.flatten.length ≤ f → cells f cs.flatten = cs := by
  intro cs
  induction cs with
  | nil => intro _ f _; cases f <;> rfl
  | cons c cs ih =>
    intro h f hf
    obtain ⟨b, ts, rfl, h1, h2, h3⟩ := (h c (by simp)).bytes
    have h' : ∀ c ∈ cs, IsChar c := fun c hc => h c (List.mem_cons_of_mem _ hc)
    simp only [List.flatten_cons, List.length_append, List.length_cons] at hf
    obtain ⟨f, rfl⟩ : ∃ f', f = f' + 1 := ⟨f - 1, by omega⟩
    have hnot : cs.flatten.takeWhile tailByte = [] ∧ cs.flatten.dropWhile tailByte = cs.flatten := by
      cases cs with
      | nil => simp
      | cons c' cs' =>
        obtain ⟨b', ts', rfl, k1, _⟩ := (h' c' (by simp)).bytes
        simp [k1]
    have e1 : (ts ++ cs.flatten).takeWhile tailByte = ts := by
      rw [List.takeWhile_append_of_pos h2, hnot.1, List.append_nil]
    have e2 : (ts ++ cs.flatten).dropWhile tailByte = cs.flatten := by
      rw [List.dropWhile_append_of_pos h2, hnot.2]
    simp only [List.flatten_cons, List.cons_append, cells, e1, e2, ih h' f (by omega)]

theorem put_all : ∀ (cs : List (List Nat)), (∀ c ∈ cs, c ≠ [13]) → ∀ (s : Scr), s.wrap = false → s.col + cs.length < s.row.length →
    cs.foldl put s = { s with row := s.row.take s.col ++ cs ++ s.row.drop (s.col + cs.length), col := s.col + cs.length } := by
  intro cs
  induction cs with
  | nil => intro _ s _ _; simp
  | cons c cs ih =>
    intro h s hw hl
    have h' : ∀ c ∈ cs, c ≠ [13] := fun c hc => h c (List.mem_cons_of_mem _ hc)
    simp only [List.length_cons] at hl
    have hput : put s c = { s with row := s.row.set s.col c, col := s.col + 1 } := by
      unfold put
      rw [if_neg (h c (by simp)), if_neg (by rw [hw]; simp), if_pos (show s.col + 1 < s.row.length by omega), decide_eq_false (by omega), ← hw]
    have hlen : (s.row.set s.col c).length = s.row.length := List.length_set
    rw [List.foldl_cons, hput, ih h' { s with row := s.row.set s.col c, col := s.col + 1 } hw (by
      show s.col + 1 + cs.length < (s.row.set s.col c).length
      omega)]
    have e1 : (s.row.set s.col c).take (s.col + 1) = s.row.take s.col ++ [c] := by
      rw [List.take_succ_eq_append_getElem (by rw [List.length_set]; omega), List.take_set_of_le (Nat.le_refl _)]
      simp
    have e2 : (s.row.set s.col c).drop (s.col + 1 + cs.length) = s.row.drop (s.col + (c :: cs).length) := by
      rw [List.drop_set_of_lt (by omega)]; congr 1; simp; omega
    simp only [e1, e2, List.length_cons]
    have e3 : s.col + 1 + cs.length = s.col + (cs.length + 1) := by omega
    rw [e3, List.append_assoc, List.append_assoc, List.append_assoc]
    rfl

/-- The prompt of the editor. -/
def promptOf (a : Nat) : List Nat := [13, a, 32]

variable {e e' : Ed} {cs cs' : List (List Nat)} {n n' s' a w : Nat}

theorem prompt_shown (ha : a = 62 ∨ a = 95) (s : Scr) (hl : 5 ≤ s.row.length) (hlost : s.lost = false) :
    display s (.write (promptOf a)) = ⟨[[a], [32]] ++ s.row.drop 2, 2, false, false⟩ := by
  have hc : cells (promptOf a).length (promptOf a) = [[13], [a], [32]] := by
    rcases ha with rfl | rfl <;> decide
  have h13 : ∀ c ∈ [[a], [32]], c ≠ [13] := by
    rcases ha with rfl | rfl <;> decide
  simp only [display]
  rw [hc, List.foldl_cons]
  have : put s [13] = { s with col := 0, wrap := false } := by simp [put]
  rw [this, put_all _ h13 _ rfl (by simp; omega)]
  simp [hlost]

theorem sub_small {x y : Nat} (h : y ≤ x) (hx : x < 4294967296) : sub32 x y = x - y := by unfold sub32; omega

theorem add_small {x y : Nat} (h : x + y < 4294967296) : add32 x y = x + y := by unfold add32; omega

/-- Drawing shows the line, whatever was in the row. -/
theorem drawn_shows (ha : a = 62 ∨ a = 95) (hchars : ∀ c ∈ cs, IsChar c) (hle : n ≤ cs.length) (hscr : e.scroll.log = 0) (hi : e.inter = true)
    (hw9 : w ≤ 9999) (hw5 : 5 ≤ w) (hfit : cs.length + 3 ≤ w) (h13 : ∀ c ∈ cs, c ≠ [13]) {o : List Term}
    (ho : drawn e n cs.flatten (cs.length, cs.flatten.length, w - 3 + 1 - cs.length) = .ok o)
    (s : Scr) (hs : s.row.length = w) (hlost : s.lost = false) : Shows a w (displayAll s (Term.write (promptOf a) :: o)) cs n := by
  unfold displayAll
  rw [List.foldl_cons, prompt_shown ha s (by omega) hlost]
  have hsub : sub32 n 0 = n := by rw [sub_small (by omega) (by omega)]; rfl
  have hrl : (s.row.drop 2).length = w - 2 := by rw [List.length_drop, hs]
  have hpre : ([[a], [32]] ++ s.row.drop 2).length = w := by rw [List.length_append, hrl]; simp; omega
  unfold drawn at ho
  simp only [hscr, hsub, hi, if_true] at ho
  by_cases h0 : cs.flatten.length = 0
  · rw [if_neg (by omega)] at ho
    have hcs : cs = [] := by
      have := len_le hchars
      exact List.length_eq_zero_iff.mp (by omega)
    injection ho with ho
    subst ho
    subst hcs
    have hn0 : n = 0 := by simpa using hle
    subst hn0
    refine ⟨?_, rfl, rfl, rfl⟩
    simp only [List.foldl_cons, List.foldl_nil, display, hpre]
    simp
  · rw [if_pos h0, check_true (decide_eq_true hle), ok_bind] at ho
    injection ho with ho
    rw [if_pos (by omega), List.take_of_length_le (Nat.le_refl _)] at ho
    have hwr : display ⟨[[a], [32]] ++ s.row.drop 2, 2, false, false⟩ (.write cs.flatten) =
        ⟨[[a], [32]] ++ cs ++ s.row.drop (2 + cs.length), 2 + cs.length, false, false⟩ := by
      simp only [display]
      rw [cells_flat cs hchars _ (Nat.le_refl _), put_all cs h13 _ rfl (by simp only [hpre]; omega)]
      simp [Nat.add_comm]
    have her : display ⟨[[a], [32]] ++ cs ++ s.row.drop (2 + cs.length), 2 + cs.length, false, false⟩ .erase =
        ⟨[[a], [32]] ++ cs ++ List.replicate (w - 2 - cs.length) blank, 2 + cs.length, false, false⟩ := by
      have e1 : ([[a], [32]] ++ cs ++ s.row.drop (2 + cs.length)).take (2 + cs.length) = [[a], [32]] ++ cs := by
        rw [List.take_append_of_le_length (by simp; omega), List.take_of_length_le (by simp; omega)]
      have e2 : ([[a], [32]] ++ cs ++ s.row.drop (2 + cs.length)).length - (2 + cs.length) = w - 2 - cs.length := by
        simp only [List.length_append, List.length_cons, List.length_nil, List.length_drop, hs]; omega
      simp only [display, e1, e2]
    subst ho
    rw [List.foldl_cons, hwr]
    by_cases hd : cs.length - n = 0
    · rw [if_neg (by omega), List.append_nil, List.foldl_cons, her]
      exact ⟨rfl, show 2 + cs.length = 2 + n by omega, rfl, rfl⟩
    · rw [if_pos hd, List.singleton_append, List.foldl_cons, her]
      exact ⟨rfl, show 2 + cs.length - (cs.length - n) = 2 + n by omega, rfl, rfl⟩

/-- The editor is in a window, with one of its two prompts. -/
structure Win (a : Nat) (e : Ed) : Prop where
  ch : a = 62 ∨ a = 95
  prompt : e.prompt = promptOf a
  inter : e.inter = true
  cols : e.cols ≤ 9999

theorem Win.len (W : Win a e) : e.prompt.length = 3 := by rw [W.prompt]; rfl

/-- The text fits in the row, with a column to spare. -/
def Fit (w : Nat) (cs : List (List Nat)) : Prop := cs.length + 3 ≤ w ∧ ∀ c ∈ cs, c ≠ [13]

theorem Fit.sub (f : Fit w cs) (h : cs'.length ≤ cs.length) (hm : ∀ c ∈ cs', c ∈ cs) : Fit w cs' :=
  ⟨by have := f.1; omega, fun c hc => f.2 c (hm c hc)⟩

/-- What the editor has is shown. -/
def Seen (a : Nat) (e : Ed) (s : Scr) : Prop := Shows a e.cols s (cells e.line.length e.line) e.cursor.log

theorem Good.seen_iff (g : Pre e cs n s') (s : Scr) : Seen a e s ↔ Shows a e.cols s cs n := by
  unfold Seen
  rw [g.line, cells_flat cs g.chars _ (Nat.le_refl _), g.cur]
  exact Iff.rfl

theorem Shows.len {s : Scr} (h : Shows a w s cs n) (hf : cs.length + 3 ≤ w) : s.row.length = w := by
  rw [h.row]; simp; omega

/-- What was shown stays so, after what is written. -/
def Kept (a : Nat) (e e' : Ed) : Prop :=
  (e'.inter = e.inter ∧ e'.cols = e.cols) ∧ e'.scroll.log = 0 ∧ ∃ o, e'.out = e.out ++ o ∧ ∀ s, Seen a e s → Seen a e' (displayAll s o)

theorem redraw_shows (W : Win a e) (h : Pre e cs n 0) (f : Fit e.cols cs) :
    ∃ e', redraw e = .ok e' ∧ (e'.inter = e.inter ∧ e'.cols = e.cols) ∧ e'.scroll.log = 0 ∧ ∃ o, e'.out = e.out ++ o ∧
      ∀ s : Scr, s.row.length = e.cols → s.lost = false → Seen a e' (displayAll s o) := by
  obtain ⟨e', r, g, sm⟩ := redraw_ok h
  have hl := h.len
  have hw := h.wide
  have hle := h.le
  have hc := W.cols
  have hp3 := W.len
  have hf := f.1
  have hmin : min n (0 + (e.cols - e.prompt.length)) = n := by omega
  rw [hmin] at g
  refine ⟨e', r, ⟨sm.inter, sm.cols⟩, by rw [g.scr]; rfl, ?_⟩
  have hnum : add32 (sub32 e.cols e.prompt.length) 1 = e.cols - 3 + 1 := by rw [hp3, sub_small (by omega) (by omega), add_small (by omega)]
  have hcur1 : e.cursor.log = n := by rw [h.cur]; rfl
  have hcur2 : e.cursor.phys = (At cs n).phys := by rw [h.cur]
  have hscr1 : e.scroll.log = 0 := by rw [h.scr]; rfl
  have hscr2 : e.scroll.phys = 0 := by rw [h.scr]; rfl
  have hlast : sub32 (add32 0 (e.cols - 3 + 1)) 1 = e.cols - 3 := by rw [add_small (by omega), sub_small (by omega) (by omega)]; omega
  have c1 : check (decide (e.cursor.log ≤ e.lineSize)) = .ok () := check_true (by rw [hcur1, h.size]; exact decide_eq_true h.le)
  have c2 : check (decide (e.cursor.phys ≤ e.line.length)) = .ok () := check_true (by rw [hcur2, h.line]; exact decide_eq_true (At.le n))
  have c3 : check (decide (e.cursor.log ≥ e.scroll.log)) = .ok () := check_true (by rw [hcur1, hscr1]; exact decide_eq_true (Nat.zero_le _))
  have c4 : check (decide (e.cursor.phys ≥ e.scroll.phys)) = .ok () := check_true (by rw [hcur2, hscr2]; exact decide_eq_true (Nat.zero_le _))
  have hd : decTo e.line (e.cols - 3) e.cursor = .ok (At cs n) := by
    rw [h.cur, h.line, decTo_at h.chars (by omega) _ h.le, Nat.min_eq_left (by omega)]
  have hdr : e.line.drop e.scroll.phys = cs.flatten := by rw [h.line, hscr2]; rfl
  have hdraw := draw_flat cs h.chars cs.flatten.length (e.cols - 3 + 1) (Nat.le_refl _)
  rw [Nat.min_eq_right (by omega), List.take_of_length_le (by omega)] at hdraw
  have c5 : check (decide (n ≤ cs.length)) = .ok () := check_true (decide_eq_true h.le)
  have hsub : sub32 n 0 = n := by rw [sub_small (by omega) (by omega)]; rfl
  have ha : ∃ o, drawn e n cs.flatten (cs.length, cs.flatten.length, e.cols - 3 + 1 - cs.length) = .ok o := by
    unfold drawn
    simp only [hscr1, hsub, c5, ok_bind]
    split <;> exact ⟨_, rfl⟩
  obtain ⟨o, ha⟩ := ha
  unfold redraw at r
  rw [hnum, c1, c2, c3, c4, hscr1] at r
  simp only [ok_bind, hlast, hd, hdr, hdraw, show (At cs n).log = n from rfl, ha] at r
  injection r with r
  refine ⟨Term.write (promptOf a) :: o, by rw [← r, W.prompt], ?_⟩
  intro s hs hlost
  rw [Good.seen_iff g.toPre, sm.cols]
  exact drawn_shows W.ch h.chars hle hscr1 W.inter hc (by omega) hf f.2 ha s hs hlost

/-- Drawing a changed line. -/
theorem Kept.drawn (W : Win a e) (g : Pre e cs n s') (f : Fit e.cols cs) {e1 : Ed} (W1 : Win a e1) (h1 : Pre e1 cs' n' 0) (f1 : Fit e1.cols cs')
    (hout : e1.out = e.out) (hcols : e1.cols = e.cols) : ∃ e', redraw e1 = .ok e' ∧ Kept a e e' := by
  obtain ⟨e', r, kk, k, o, ho, hs⟩ := redraw_shows W1 h1 f1
  refine ⟨e', r, ⟨by rw [kk.1, W1.inter, W.inter], by rw [kk.2, hcols]⟩, k, o, by rw [ho, hout], ?_⟩
  intro s hS
  rw [Good.seen_iff g] at hS
  exact hs s (by rw [hcols]; exact hS.len f.1) hS.lost

theorem Kept.move (W : Win a e) (g : Good e cs n 0) (f : Fit e.cols cs) {m : Nat} (hm : m ≤ cs.length) :
    ∃ e', moveTo e (At cs m) = .ok e' ∧ Kept a e e' := by
  have hle := g.le
  have hf := f.1
  have hlast := g.last
  have hp3 := W.len
  have hcur1 : e.cursor.log = n := by rw [g.cur]; rfl
  have hscr1 : e.scroll.log = 0 := by rw [g.scr]; rfl
  unfold moveTo
  simp only [hcur1, hscr1, show (At cs m).log = m from rfl]
  by_cases h1 : m = n
  · rw [if_pos h1]
    exact ⟨e, rfl, ⟨rfl, rfl⟩, hscr1, [], by simp, fun s hs => hs⟩
  · rw [if_neg h1, if_pos ⟨Nat.zero_le _, by omega⟩]
    have hp : Pre { e with cursor := At cs m, out := e.out ++ [if m > n then Term.right (m - n) else Term.left (n - m)] } cs m 0 :=
      ⟨g.chars, g.line, g.size, rfl, hm, g.scr, Nat.zero_le _, g.big, g.wide, g.short, g.cols⟩
    refine ⟨_, rfl, ⟨rfl, rfl⟩, hscr1, [if m > n then Term.right (m - n) else Term.left (n - m)], rfl, ?_⟩
    intro s hS
    rw [Good.seen_iff g.toPre] at hS
    rw [Good.seen_iff hp]
    have hlen := hS.len f.1
    show Shows a e.cols (display s _) cs m
    by_cases h2 : m > n
    · rw [if_pos h2]
      refine ⟨hS.row, ?_, rfl, hS.lost⟩
      show min (s.col + (m - n)) (s.row.length - 1) = 2 + m
      rw [hS.col, hlen]; omega
    · rw [if_neg h2]
      refine ⟨hS.row, ?_, rfl, hS.lost⟩
      show s.col - (n - m) = 2 + m
      rw [hS.col]; omega

theorem Kept.bell (g : Good e cs n 0) : Kept a e (e.emit .bell) :=
  ⟨⟨rfl, rfl⟩, by show e.scroll.log = 0; rw [g.scr]; rfl, [.bell], rfl, fun _ hs => hs⟩

theorem Kept.same (g : Good e cs n 0) : Kept a e e :=
  ⟨⟨rfl, rfl⟩, by rw [g.scr]; rfl, [], by simp, fun _ hs => hs⟩

theorem Kept.delete (W : Win a e) (g : Good e cs n 0) (f : Fit e.cols cs) {b c : Nat} (hb : b ≤ n) (hnc : n ≤ c) (hc : c ≤ cs.length) :
    ∃ e', deleteRange e (At cs b) (At cs c) = .ok e' ∧ Kept a e e' := by
  obtain ⟨e', s', r, g', sm⟩ := delete_ok g hb hnc hc
  have hf := f.1
  have hlast := g.last
  have hp3 := W.len
  have hscr1 : e.scroll.log = 0 := by rw [g.scr]; rfl
  have hck : check (decide (b ≤ c)) = .ok () := check_true (decide_eq_true (by omega))
  refine ⟨e', r, ?_⟩
  unfold deleteRange at r
  simp only [show (At cs b).log = b from rfl, show (At cs c).log = c from rfl, hck, ok_bind] at r
  by_cases h0 : c - b = 0
  · rw [if_pos h0] at r
    obtain ⟨e'', r', k⟩ := Kept.move W g f (m := b) (by omega)
    rw [r'] at r
    injection r with r
    exact r ▸ k
  · rw [if_neg h0] at r
    have h := g
    have hl := g.len
    generalize hcs : cs.take b ++ cs.drop c = cs' at g'
    have hflat : cs'.flatten = (cs.take b).flatten ++ (cs.drop c).flatten := by rw [← hcs]; simp
    have hmono := At.mono (cs := cs) (m := b) (n := c) (by omega)
    have hphys := At.le (cs := cs) c
    have hdl : (cs.drop c).flatten.length = cs.flatten.length - (At cs c).phys := by rw [← drop_flat, List.length_drop]
    have htl : (cs.take b).flatten.length = (At cs b).phys := rfl
    have hline : (if c < e.lineSize then e.line.take (At cs b).phys ++ e.line.drop (At cs c).phys ++
          e.line.drop ((At cs b).phys + (e.line.length - (At cs c).phys)) else e.line).take (e.line.length - ((At cs c).phys - (At cs b).phys)) =
        cs'.flatten := by
      rw [h.size, h.line, take_flat, drop_flat, hflat]
      split
      · rw [List.take_append_of_le_length (by rw [List.length_append, hdl, htl]; omega), List.take_of_length_le (by rw [List.length_append, hdl, htl]; omega)]
      · have : c = cs.length := by omega
        have e1 : cs.flatten.length - ((At cs c).phys - (At cs b).phys) = (At cs b).phys := by rw [this, At.all] at *; omega
        rw [e1, take_flat, this]
        simp
    have hlen : cs'.length = cs.length - (c - b) := by rw [← hcs]; simp; omega
    have hsz : sub32 e.lineSize (c - b) = cs'.length := by rw [h.size, hlen]; unfold sub32; omega
    have hchars : ∀ x ∈ cs', IsChar x := by
      intro x hx
      rw [← hcs] at hx
      rcases List.mem_append.mp hx with hx | hx
      · exact h.chars x (List.mem_of_mem_take hx)
      · exact h.chars x (List.mem_of_mem_drop hx)
    have hat : ∀ m, m ≤ b → At cs' m = At cs m := by
      intro m hm; rw [← hcs]; exact take_app hm (by omega) _
    have hbig : cs'.flatten.length < 65536 := by
      have := h.big
      rw [hflat, List.length_append, hdl, htl]; omega
    rw [hline, hsz, hscr1, if_pos ⟨Nat.zero_le _, by omega⟩] at r
    have hp : Pre { e with line := cs'.flatten, lineSize := cs'.length, cursor := At cs b } cs' b 0 :=
      ⟨hchars, rfl, rfl, (hat b (Nat.le_refl _)).symm, by omega, g.scr, Nat.zero_le _, hbig, g.wide, g.short, g.cols⟩
    obtain ⟨e'', r', k⟩ := Kept.drawn W g.toPre f (e1 := { e with line := cs'.flatten, lineSize := cs'.length, cursor := At cs b })
      ⟨W.ch, W.prompt, W.inter, W.cols⟩ hp (f.sub (by omega) (fun x hx => by
        rw [← hcs] at hx
        rcases List.mem_append.mp hx with hx | hx
        · exact List.mem_of_mem_take hx
        · exact List.mem_of_mem_drop hx)) rfl rfl
    rw [r'] at r
    injection r with r
    exact r ▸ k

theorem insertAll_one (x : Ed) (b : Nat) : insertAll x [b] = insert x b := by
  unfold insertAll
  cases insert x b <;> rfl

theorem Kept.type (W : Win a e) (h : Good e cs n 0) (f : Fit e.cols cs) {c : List Nat} (hc : IsChar c) (hbig : cs.flatten.length + c.length < 65536)
    (f1 : Fit e.cols (cs.take n ++ c :: cs.drop n)) : ∀ (q p : List Nat), c = p ++ q → q ≠ [] →
    ∃ e', insertAll { e with line := (cs.take n).flatten ++ p ++ (cs.drop n).flatten, cursor := ⟨n, (cs.take n).flatten.length + p.length⟩ } q = .ok e' ∧
      Kept a e e' := by
  intro q
  induction q with
  | nil => intro p _ hq; exact absurd rfl hq
  | cons b q ih =>
    intro p hpb _
    by_cases hq : q = []
    · subst hq
      have hl := h.len
      have hle := h.le
      have hlast := h.last
      have hp3 := W.len
      generalize hcs : cs.take n ++ c :: cs.drop n = cs' at f1
      have hflat : cs'.flatten = (cs.take n).flatten ++ p ++ b :: (cs.drop n).flatten := by
        rw [← hcs, hpb]; simp
      have hlen : cs'.length = cs.length + 1 := by rw [← hcs]; simp; omega
      have hflen : cs'.flatten.length = cs.flatten.length + c.length := by
        rw [hflat, flat_split (cs := cs) n, hpb]; simp; omega
      have hchars : ∀ x ∈ cs', IsChar x := by
        intro x hx
        rw [← hcs] at hx
        rcases List.mem_append.mp hx with hx | hx
        · exact h.chars x (List.mem_of_mem_take hx)
        · rcases List.mem_cons.mp hx with rfl | hx
          · exact hc
          · exact h.chars x (List.mem_of_mem_drop hx)
      have hat : ∀ m, m ≤ n → At cs' m = At cs m := by
        intro m hm; rw [← hcs]; exact take_app hm hle _
      have hat1 : At cs' (n + 1) = ⟨n + 1, (cs.take n).flatten.length + p.length + 1⟩ := by
        have : cs'.take (n + 1) = cs.take n ++ [c] := by
          rw [← hcs, List.take_append, List.take_of_length_le (by rw [List.length_take]; omega)]
          have : n + 1 - (cs.take n).length = 1 := by rw [List.length_take]; omega
          rw [this]; rfl
        simp only [At, this, List.flatten_append, List.length_append, List.flatten_cons, List.flatten_nil, List.append_nil, hpb]
        simp [Nat.add_assoc]
      have hfin : finished cs'.flatten ((cs.take n).flatten.length + p.length) 0 = .ok true := by
        obtain ⟨b0, ts, e1, t1, t2, t3⟩ := hc.parts
        have := finished_tails (cs.take n).flatten b0 t1 ts (cs.drop n).flatten t2 ts.length 0 (Nat.le_refl _)
        have hlp : p.length = ts.length := by
          have := congrArg List.length (hpb.symm.trans e1); simp at this; exact this
        have e2 : cs'.flatten = (cs.take n).flatten ++ b0 :: ts ++ (cs.drop n).flatten := by
          rw [← hcs, e1]; simp
        rw [e2, hlp, this]
        congr 1
        exact decide_eq_true (by omega)
      have hline : ((cs.take n).flatten ++ p ++ (cs.drop n).flatten).take ((cs.take n).flatten.length + p.length) ++
          b :: ((cs.take n).flatten ++ p ++ (cs.drop n).flatten).drop ((cs.take n).flatten.length + p.length) = cs'.flatten := by
        rw [hflat, List.take_append_of_le_length (by simp), List.take_of_length_le (by simp), List.drop_append_of_le_length (by simp),
          List.drop_eq_nil_of_le (by simp)]
        simp
      have hc1 : check (decide ((cs.take n).flatten.length + p.length ≤ ((cs.take n).flatten ++ p ++ (cs.drop n).flatten).length)) = .ok () :=
        check_true (decide_eq_true (by simp))
      have ha1 : add32 n 1 = n + 1 := by unfold add32; omega
      have ha2 : add32 e.lineSize 1 = cs'.length := by rw [h.size, hlen]; unfold add32; omega
      have hf1 := f1.1
      have hp : Pre { e with line := cs'.flatten, lineSize := cs'.length, cursor := ⟨n + 1, (cs.take n).flatten.length + p.length + 1⟩ } cs' (n + 1) 0 :=
        ⟨hchars, rfl, rfl, hat1.symm, by omega, h.scr, Nat.zero_le _, by omega, h.wide, h.short, h.cols⟩
      obtain ⟨e', r', k⟩ := Kept.drawn W h.toPre f
        (e1 := { e with line := cs'.flatten, lineSize := cs'.length, cursor := ⟨n + 1, (cs.take n).flatten.length + p.length + 1⟩ })
        ⟨W.ch, W.prompt, W.inter, W.cols⟩ hp f1 rfl rfl
      rw [insertAll_one]
      unfold insert
      simp only [hc1, ok_bind, hline, hfin, Bool.not_true, Bool.false_eq_true, if_false, ha1, ha2]
      rw [if_neg (by omega)]
      by_cases ht : ((cs.take n).flatten ++ p ++ (cs.drop n).flatten).length - ((cs.take n).flatten.length + p.length) ≠ 0 ∨ isTail b = true
      · rw [if_pos ht, r']
        exact ⟨e', rfl, k⟩
      · rw [if_neg ht]
        refine ⟨_, rfl, ⟨rfl, rfl⟩, by show e.scroll.log = 0; rw [h.scr]; rfl, [.write [b]], rfl, ?_⟩
        have ht1 : (cs.drop n).flatten.length = 0 := by
          have : ¬ ((cs.take n).flatten ++ p ++ (cs.drop n).flatten).length - ((cs.take n).flatten.length + p.length) ≠ 0 := fun h0 => ht (Or.inl h0)
          rw [List.length_append, List.length_append] at this
          omega
        have hn : n = cs.length := by
          have := len_le (cs := cs.drop n) (fun x hx => h.chars x (List.mem_of_mem_drop hx))
          rw [List.length_drop] at this
          omega
        have hcb : c = [b] := by
          obtain ⟨b0, ts, e1, t1, t2, t3⟩ := hc.parts
          cases p with
          | nil => exact hpb
          | cons p0 ps =>
            exfalso
            rw [e1] at hpb
            injection hpb with _ hpb
            exact ht (Or.inr (t2 b (by rw [hpb]; simp)))
        have hcs' : cs' = cs ++ [[b]] := by rw [← hcs, hn, hcb]; simp
        intro s hS
        rw [Good.seen_iff h.toPre] at hS
        rw [Good.seen_iff (hp.emit _)]
        have hlen := hS.len f.1
        have hb13 : [b] ≠ [13] := f1.2 [b] (by rw [hcs']; simp)
        have hd : displayAll s [.write [b]] = [[b]].foldl put s := rfl
        rw [hd, put_all [[b]] (by simpa using hb13) s hS.wrap (by rw [hS.col, hlen, hn]; simp; omega)]
        refine ⟨?_, ?_, hS.wrap, hS.lost⟩
        · show s.row.take s.col ++ [[b]] ++ s.row.drop (s.col + 1) = [[a], [32]] ++ cs' ++ List.replicate (e.cols - 2 - cs'.length) blank
          have hk : e.cols - 2 - cs.length = e.cols - 2 - cs'.length + 1 := by omega
          have hcol : s.col = ([[a], [32]] ++ cs).length := by rw [hS.col, hn]; simp; omega
          rw [hS.row, hk, List.replicate_succ, hcol, List.take_append_of_le_length (Nat.le_refl _), List.take_of_length_le (Nat.le_refl _),
            List.drop_append, List.drop_eq_nil_of_le (by omega), Nat.add_sub_cancel_left, hcs']
          simp
        · show s.col + 1 = 2 + (n + 1)
          rw [hS.col]; omega
    · obtain ⟨e', r, k⟩ := ih (p ++ [b]) (by rw [hpb]; simp) hq
      exact ⟨e', by rw [insertAll, insert_part h hc hpb hq, ok_bind]; exact r, k⟩

theorem Kept.restore (W : Win a e) (g : Pre e cs n s') (f : Fit e.cols cs) {e1 : Ed} (W1 : Win a e1) (hout : e1.out = e.out) (hcols : e1.cols = e.cols)
    (r : NodeRep e1.node cs') (f1 : Fit e.cols cs') (hwide : e1.prompt.length + 2 ≤ e1.cols) : ∃ e', restore e1 = .ok e' ∧ Kept a e e' := by
  have hl := len_le r.chars
  have hbig := r.big
  have hp3 := W1.len
  have hf1 := f1.1
  have ha1 : add32 cs'.length e1.prompt.length = cs'.length + 3 := by rw [hp3]; exact add_small (by omega)
  have hcur : (⟨cs'.length, cs'.flatten.length⟩ : Pos) = At cs' cs'.length := by simp [At]
  unfold Line.restore
  simp only [r.bytes, r.lineSize, ha1, hcur]
  rw [if_neg (by omega), ok_bind]
  have hp : Pre { e1 with line := cs'.flatten, lineSize := cs'.length, cursor := At cs' cs'.length, scroll := ⟨0, 0⟩ } cs' cs'.length 0 :=
    ⟨r.chars, rfl, rfl, rfl, Nat.le_refl _, rfl, Nat.zero_le _, hbig, hwide, by show 1 ≤ e1.prompt.length ∧ e1.prompt.length ≤ 100; omega,
      Or.inl W1.cols⟩
  exact Kept.drawn W g f (e1 := { e1 with line := cs'.flatten, lineSize := cs'.length, cursor := At cs' cs'.length, scroll := ⟨0, 0⟩ })
    ⟨W1.ch, W1.prompt, W1.inter, W1.cols⟩ hp (by show Fit e1.cols cs'; rw [hcols]; exact f1) hout hcols

theorem Kept.kill (g : Good e cs n 0) (f : Fit e.cols cs) :
    Kept a e ({ e with line := e.line.take e.cursor.phys, lineSize := e.cursor.log }.emit .erase) := by
  have hle := g.le
  have hat : ∀ m, m ≤ n → At (cs.take n) m = At cs m := by
    intro m hm; have := take_app hm hle []; rwa [List.append_nil] at this
  have hbig : (cs.take n).flatten.length < 65536 := by
    have := g.big
    have h2 : cs.flatten.length = (cs.take n).flatten.length + (cs.drop n).flatten.length := by
      conv => lhs; rw [flat_split (cs := cs) n, List.length_append]
    omega
  have hp : Pre { e with line := e.line.take e.cursor.phys, lineSize := e.cursor.log } (cs.take n) n 0 :=
    ⟨fun c hc => g.chars c (List.mem_of_mem_take hc), by show e.line.take e.cursor.phys = _; rw [g.line, g.cur, take_flat],
      by show e.cursor.log = _; rw [g.cur, List.length_take, Nat.min_eq_left hle]; rfl, by rw [hat _ (Nat.le_refl _)]; exact g.cur,
      by rw [List.length_take, Nat.min_eq_left hle]; exact Nat.le_refl _, g.scr, Nat.zero_le _, hbig, g.wide, g.short, g.cols⟩
  refine ⟨⟨rfl, rfl⟩, by show e.scroll.log = 0; rw [g.scr]; rfl, [.erase], rfl, ?_⟩
  intro s hS
  rw [Good.seen_iff g.toPre] at hS
  rw [Good.seen_iff (hp.emit _)]
  have hlen := hS.len f.1
  have hf := f.1
  refine ⟨?_, hS.col, hS.wrap, hS.lost⟩
  show s.row.take s.col ++ List.replicate (s.row.length - s.col) blank = [[a], [32]] ++ cs.take n ++ List.replicate (e.cols - 2 - (cs.take n).length) blank
  rw [hlen, hS.col, hS.row, List.append_assoc, List.take_append, List.take_of_length_le (by simp)]
  have e1 : 2 + n - ([[a], [32]] : List (List Nat)).length = n := by simp
  rw [e1, List.take_append_of_le_length hle, List.length_take, Nat.min_eq_left hle, Nat.sub_sub]

theorem Kept.refresh (W : Win a e) (g : Good e cs n 0) (f : Fit e.cols cs) : ∃ e', redraw (e.emit .clear) = .ok e' ∧ Kept a e e' := by
  obtain ⟨e', r, kk, k, o, ho, hs⟩ := redraw_shows (e := e.emit .clear) ⟨W.ch, W.prompt, W.inter, W.cols⟩ (g.toPre.emit .clear) f
  refine ⟨e', r, kk, k, .clear :: o, by rw [ho]; simp [Ed.emit], ?_⟩
  intro s hS
  rw [Good.seen_iff g.toPre] at hS
  exact hs (display s .clear) (by show (List.replicate s.row.length blank).length = e.cols; rw [List.length_replicate]; exact hS.len f.1) hS.lost

variable {z z' : Text} {N : Nat}

/-- One key. -/
theorem step_kept (h : Inv e z N) (g : Good e z.chars z.cur 0) (W : Win a e) (f : Fit e.cols z.chars) {v : Ev} (hv : Legal v)
    (hres : ∀ w, v ≠ .resize w) (hN : N + typed [v] < 65536) (hf : ∀ z', Means 3 z v z' → Fit e.cols z'.chars) (r : step e v = .ok e') : Kept a e e' := by
  have hle := g.le
  have hl := g.len
  have hlog : e.cursor.log = z.cur := by rw [g.cur]; rfl
  have hphys : e.cursor.phys = (At z.chars z.cur).phys := by rw [g.cur]
  have uniq : ∀ {x : Except Err Ed}, x = .ok e' → (∃ e'', x = .ok e'' ∧ Kept a e e'') → Kept a e e' := by
    rintro x h1 ⟨e'', h2, k⟩
    rw [h1] at h2
    injection h2 with h2
    exact h2 ▸ k
  cases v with
  | resize w => exact absurd rfl (hres w)
  | text c =>
    simp only [typed, Nat.add_zero] at hN
    have hsm := h.small
    have := Kept.type W g f hv (by omega) (hf _ rfl) c [] rfl (by have := IsChar.pos hv; intro h0; rw [h0] at this; simp at this)
    have he : { e with line := (z.chars.take z.cur).flatten ++ [] ++ (z.chars.drop z.cur).flatten,
                       cursor := ⟨z.cur, (z.chars.take z.cur).flatten.length + ([] : List Nat).length⟩ } = e := by
      have h1 : (z.chars.take z.cur).flatten ++ [] ++ (z.chars.drop z.cur).flatten = e.line := by rw [g.line, flat_split (cs := z.chars) z.cur]; simp
      have h2 : (⟨z.cur, (z.chars.take z.cur).flatten.length + ([] : List Nat).length⟩ : Pos) = e.cursor := by rw [g.cur]; rfl
      rw [h1, h2]
    rw [he] at this
    exact uniq r this
  | left =>
    have r : goLeft e = .ok e' := r
    unfold goLeft at r
    by_cases h0 : z.cur = 0
    · rw [if_pos (by rw [hphys, h0]; rfl), check_true (by rw [hlog, h0]; rfl), ok_bind] at r
      exact uniq r ⟨_, rfl, Kept.bell g⟩
    · obtain ⟨k, hk⟩ : ∃ k, z.cur = k + 1 := ⟨z.cur - 1, by omega⟩
      rw [if_neg (by rw [hphys, At.zero g.chars hle]; exact h0), g.cur, g.line, hk, dec_at g.chars (by omega) (by omega), ok_bind] at r
      exact uniq r (Kept.move W g f (by omega))
  | right =>
    have r : goRight e = .ok e' := r
    unfold goRight at r
    by_cases h0 : z.cur = z.chars.length
    · rw [if_pos (by rw [hlog, g.size]; omega), check_true (by rw [hlog, g.size, h0]; simp), ok_bind] at r
      exact uniq r ⟨_, rfl, Kept.bell g⟩
    · rw [if_neg (by rw [hlog, g.size]; omega), g.cur, g.line, inc_at g.chars (by omega) (by omega)] at r
      exact uniq r (Kept.move W g f (by omega))
  | wordLeft =>
    obtain ⟨m, r1, q, hm⟩ := begin_ok g
    simp only [step, r1, ok_bind] at r
    exact uniq r (Kept.move W g f (by omega))
  | wordRight =>
    obtain ⟨m, r1, q, _, hm⟩ := end_ok g
    simp only [step, r1, ok_bind] at r
    exact uniq r (Kept.move W g f hm)
  | home => exact uniq r (Kept.move W g f (m := 0) (by omega))
  | fin =>
    have r1 := Kept.move W g f (m := z.chars.length) (Nat.le_refl _)
    rw [step, g.size, g.line, ← At.all] at r
    exact uniq r r1
  | up =>
    have r : goUp e = .ok e' := r
    unfold goUp at r
    have ho := h.older
    cases hz : z.older with
    | nil =>
      rw [hz] at ho
      cases he : e.older with
      | nil => rw [he] at r; exact uniq r ⟨_, rfl, Kept.bell g⟩
      | cons x l => rw [he] at ho; cases ho
    | cons o os =>
      rw [hz] at ho
      cases he : e.older with
      | nil => rw [he] at ho; cases ho
      | cons x l =>
        rw [he] at ho r
        cases ho with
        | cons hx hos =>
          obtain ⟨nd, q, rn⟩ := save_ok g h.node
          simp only [q, ok_bind] at r
          exact uniq r (Kept.restore W g.toPre f (e1 := { e with node := x, older := l, newer := nd :: e.newer }) ⟨W.ch, W.prompt, W.inter, W.cols⟩ rfl rfl hx
            (hf ⟨o, o.length, os, z.chars :: z.newer⟩ (by simp only [Means, hz])) g.wide)
  | down =>
    have r : goDown e = .ok e' := r
    unfold goDown at r
    have ho := h.newer
    cases hz : z.newer with
    | nil =>
      rw [hz] at ho
      cases he : e.newer with
      | nil => rw [he] at r; exact uniq r ⟨_, rfl, Kept.bell g⟩
      | cons x l => rw [he] at ho; cases ho
    | cons o os =>
      rw [hz] at ho
      cases he : e.newer with
      | nil => rw [he] at ho; cases ho
      | cons x l =>
        rw [he] at ho r
        cases ho with
        | cons hx hos =>
          obtain ⟨nd, q, rn⟩ := save_ok g h.node
          simp only [q, ok_bind] at r
          exact uniq r (Kept.restore W g.toPre f (e1 := { e with node := x, newer := l, older := nd :: e.older }) ⟨W.ch, W.prompt, W.inter, W.cols⟩ rfl rfl hx
            (hf ⟨o, o.length, z.chars :: z.older, os⟩ (by simp only [Means, hz])) g.wide)
  | backspace =>
    simp only [step] at r
    by_cases h0 : z.cur = 0
    · rw [if_pos (by rw [hphys, h0]; rfl), check_true (by rw [hlog, h0]; rfl), ok_bind] at r
      exact uniq r ⟨_, rfl, Kept.bell g⟩
    · obtain ⟨k, hk⟩ : ∃ k, z.cur = k + 1 := ⟨z.cur - 1, by omega⟩
      rw [if_neg (by rw [hphys, At.zero g.chars hle]; exact h0), g.cur, g.line, hk, dec_at g.chars (by omega) (by omega), ok_bind] at r
      exact uniq r (Kept.delete W g f (by omega) (by omega) (by omega))
  | delete =>
    simp only [step] at r
    by_cases h0 : z.cur = z.chars.length
    · rw [if_pos (by rw [hphys, g.line, At.full g.chars hle]; exact h0)] at r
      exact uniq r ⟨_, rfl, Kept.bell g⟩
    · rw [if_neg (by rw [hphys, g.line, At.full g.chars hle]; exact h0), g.cur, g.line, inc_at g.chars (by omega) (by omega)] at r
      exact uniq r (Kept.delete W g f (Nat.le_refl _) (by omega) (by omega))
  | deleteWordLeft =>
    simp only [step] at r
    by_cases h0 : z.cur = 0
    · rw [if_pos (by rw [hlog]; exact h0)] at r
      exact uniq r ⟨_, rfl, Kept.same g⟩
    · obtain ⟨m, r1, q, hm⟩ := begin_ok g
      rw [if_neg (by rw [hlog]; exact h0), r1, ok_bind, g.cur] at r
      exact uniq r (Kept.delete W g f hm (Nat.le_refl _) hle)
  | deleteWordRight =>
    simp only [step] at r
    by_cases h0 : z.cur = z.chars.length
    · rw [if_pos (by rw [hlog, g.size]; exact h0)] at r
      exact uniq r ⟨_, rfl, Kept.same g⟩
    · obtain ⟨m, r1, q, hm, hm'⟩ := end_ok g
      rw [if_neg (by rw [hlog, g.size]; exact h0), r1, ok_bind, g.cur] at r
      exact uniq r (Kept.delete W g f (Nat.le_refl _) hm hm')
  | killRight =>
    simp only [step] at r
    by_cases h0 : z.cur = z.chars.length
    · rw [if_pos (by rw [hphys, g.line, At.full g.chars hle]; exact h0)] at r
      exact uniq r ⟨_, rfl, Kept.same g⟩
    · rw [if_neg (by rw [hphys, g.line, At.full g.chars hle]; exact h0)] at r
      exact uniq r ⟨_, rfl, Kept.kill g f⟩
  | killAll =>
    simp only [step] at r
    by_cases h0 : z.chars.length = 0
    · rw [if_pos (by rw [g.size]; exact h0)] at r
      exact uniq r ⟨_, rfl, Kept.same g⟩
    · rw [if_neg (by rw [g.size]; exact h0)] at r
      have hp : Pre { e with line := [], lineSize := 0, cursor := ⟨0, 0⟩, scroll := ⟨0, 0⟩ } [] 0 0 :=
        ⟨by simp, rfl, rfl, rfl, Nat.le_refl _, rfl, Nat.le_refl _, by simp, g.wide, g.short, Or.inl W.cols⟩
      exact uniq r (Kept.drawn W g.toPre f (e1 := { e with line := [], lineSize := 0, cursor := ⟨0, 0⟩, scroll := ⟨0, 0⟩ })
        ⟨W.ch, W.prompt, W.inter, W.cols⟩ hp (f.sub (by simp) (by simp)) rfl rfl)
  | refresh => exact uniq r (Kept.refresh W g f)

theorem Good.at_zero (g : Good e cs n s') (h : e.scroll.log = 0) : Good e cs n 0 := by
  have : s' = 0 := by rw [g.scr] at h; exact h
  exact this ▸ g

/-- Any keys.  All texts on the way fit. -/
theorem steps_kept : ∀ (vs : List Ev) {e : Ed} {z : Text} {N : Nat}, Inv e z N → Good e z.chars z.cur 0 → Win a e → (∀ v ∈ vs, Legal v) →
    (∀ v ∈ vs, ∀ w, v ≠ .resize w) → N + typed vs < 65536 → (∀ k z', MeansAll 3 z (vs.take k) z' → Fit e.cols z'.chars) → ∀ s, Shows a e.cols s z.chars z.cur →
    ∃ e' z' o, steps e vs = .ok e' ∧ MeansAll 3 z vs z' ∧ e'.line = z'.chars.flatten ∧ e'.out = e.out ++ o ∧
      Shows a e.cols (displayAll s o) z'.chars z'.cur := by
  intro vs
  induction vs with
  | nil =>
    intro e z N h g W _ _ _ hf s hs
    exact ⟨e, z, [], rfl, .nil z, g.line, by simp, hs⟩
  | cons v vs ih =>
    intro e z N h g W hv hres hN hf s hs
    have hty : typed (v :: vs) = typed [v] + typed vs := by cases v <;> simp [typed]
    obtain ⟨e1, z1, r, m, i, p⟩ := step_ok h (hv v (by simp)) (by omega)
    rw [W.len] at m
    have k := step_kept h g W (hf 0 z (.nil z)) (hv v (by simp)) (hres v (by simp)) (by omega) (fun z' hm => hf 1 z' (.cons hm (.nil z'))) r
    obtain ⟨same, k0, o, ho, hk⟩ := k
    obtain ⟨s1, g1⟩ := i.good
    have g1 := g1.at_zero k0
    have hS := hk s ((Good.seen_iff g.toPre s).mpr hs)
    rw [Good.seen_iff g1.toPre, same.2] at hS
    have W1 : Win a e1 := ⟨W.ch, p.trans W.prompt, same.1.trans W.inter, by rw [same.2]; exact W.cols⟩
    obtain ⟨e', z', o', r', m', l', ho', hS'⟩ := ih i g1 W1 (fun v hm => hv v (List.mem_cons_of_mem _ hm)) (fun v hm => hres v (List.mem_cons_of_mem _ hm)) (by omega)
      (by rw [same.2]; exact fun k z' hm => hf (k + 1) z' (.cons m hm)) (displayAll s o) (by rw [same.2]; exact hS)
    refine ⟨e', z', o ++ o', by rw [steps, r, ok_bind]; exact r', .cons m m', l', by rw [ho', ho, List.append_assoc], ?_⟩
    rw [same.2] at hS'
    unfold displayAll at hS' ⊢
    rw [List.foldl_append]
    exact hS'

/-- The prompt is shown first. -/
theorem start_shows (ha : a = 62 ∨ a = 95) (hw : 5 ≤ w ∧ w ≤ 9999) {hist : List Node} (h : start (promptOf a) true w hist = .ok e) (hc : e.cols = w)
    (g : Good e [] 0 0) : e.inter = true ∧ ∀ s : Scr, s.row.length = w → s.lost = false → Shows a w (displayAll s e.out) [] 0 := by
  generalize he : (⟨[], 0, promptOf a, true, 0, 0, ⟨0, 0⟩, ⟨0, 0⟩, newNode [] 0, hist, [], []⟩ : Ed) = e0
  have h1 : e0.prompt = promptOf a := by rw [← he]
  have h2 : e0.inter = true := by rw [← he]
  have h3 : e0.out = [] := by rw [← he]
  have hs : setCols e0 w = w := by
    unfold setCols
    rw [if_pos h2, h1, show (promptOf a).length = 3 from rfl]
    omega
  have hpre : Pre { e0 with cols := setCols e0 w } [] 0 0 := by
    refine ⟨by simp, by rw [← he]; rfl, by rw [← he]; rfl, by rw [← he]; rfl, Nat.le_refl _, by rw [← he]; rfl, Nat.le_refl _, by simp, ?_, ?_, ?_⟩
    · show e0.prompt.length + 2 ≤ setCols e0 w
      rw [hs, h1]; exact hw.1
    · show 1 ≤ e0.prompt.length ∧ e0.prompt.length ≤ 100
      rw [h1, show (promptOf a).length = 3 from rfl]; decide
    · show setCols e0 w ≤ 9999 ∨ (setCols e0 w = 4294967295 ∧ 0 = 0)
      rw [hs]; exact Or.inl hw.2
  obtain ⟨e', r, kk, k, o, ho, hS⟩ := redraw_shows (a := a) (e := { e0 with cols := setCols e0 w }) ⟨ha, h1, h2, by show setCols e0 w ≤ 9999; rw [hs]; exact hw.2⟩ hpre
    ⟨by show 0 + 3 ≤ setCols e0 w; rw [hs]; omega, by simp⟩
  unfold start at h
  rw [he, step, r] at h
  injection h with h
  subst h
  refine ⟨kk.1.trans h2, fun s h4 h5 => ?_⟩
  have := hS s (h4.trans hs.symm) h5
  rw [Good.seen_iff g.toPre, hc] at this
  rw [ho]
  show Shows a w (displayAll s (e0.out ++ o)) [] 0
  rw [h3]
  exact this

end Verif.Line
