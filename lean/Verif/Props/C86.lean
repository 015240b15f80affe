import Verif.Line.Screen
import Verif.Props.C85

/-!
C86: what the line editor of the interactive interpreter shows (core/kos_getline.c, for systems other than Windows).

Full statement: after any keys the row of the terminal has the prompt, the part of the text which fits, and blanks, and the cursor of the terminal is
where the next character goes.

What is proved: this holds as long as the whole text fits and leaves the last column free.  If the text takes the whole row, it does not hold.  Lines
which scroll and changes of the size of the window are left out.  Each character is taken to have one column.
-/
namespace Verif.Line

theorem ok_inj {x y : Ed} (h : (Except.ok x : Except Err Ed) = .ok y) : x = y := by injection h

theorem means_unique {p : Nat} : ∀ {vs : List Ev} {z x y : Text}, (∀ v ∈ vs, ∀ w, v ≠ .resize w) → MeansAll p z vs x → MeansAll p z vs y → x = y := by
  intro vs
  induction vs with
  | nil => intro z x y _ hx hy; cases hx; cases hy; rfl
  | cons v vs ih =>
    intro z x y h hx hy
    cases hx with
    | cons h1 t1 =>
      cases hy with
      | cons h2 t2 =>
        have := C85_one_meaning (h v (by simp)) h1 h2
        subst this
        exact ih (fun v hv => h v (List.mem_cons_of_mem _ hv)) t1 t2

/-- `a` is the visible character of the prompt.  `hs` has the lines entered before.  Whatever is in the row at the beginning, and whatever keys are
typed, the row has the text which the keys mean, and the cursor is at its place, if all texts on the way fit. -/
theorem C86_screen_partial {a w : Nat} (ha : a = 62 ∨ a = 95) (hw : 5 ≤ w ∧ w ≤ 9999) {hist : List Node} {hs : List (List (List Nat))} (hh : Reps hist hs)
    {N : Nat} (hN : ∀ o ∈ hs, o.flatten.length ≤ N) {vs : List Ev} (hv : ∀ v ∈ vs, Legal v) (hres : ∀ v ∈ vs, ∀ x, v ≠ .resize x)
    (hb : N + typed vs < 65536) (hf : ∀ k z', MeansAll 3 ⟨[], 0, hs, []⟩ (vs.take k) z' → z'.chars.length + 3 ≤ w ∧ ∀ c ∈ z'.chars, c ≠ [13]) :
    ∃ e0 e z, start (promptOf a) true w hist = .ok e0 ∧ steps e0 vs = .ok e ∧ MeansAll 3 ⟨[], 0, hs, []⟩ vs z ∧ e.line = z.chars.flatten ∧
      ∀ s : Scr, s.row.length = w → s.lost = false → Shows a w (displayAll s e.out) z.chars z.cur := by
  obtain ⟨e0, r0, i0, p0⟩ := start_ok (prompt := promptOf a) (by rw [show (promptOf a).length = 3 from rfl]; decide) true w hh hN
  obtain ⟨e1, r1, g, _, _, _, _, _, hc⟩ := start_raw (prompt := promptOf a) (by rw [show (promptOf a).length = 3 from rfl]; decide) true w hist
  have he : e0 = e1 := ok_inj (r0.symm.trans r1)
  subst he
  have hcw : e0.cols = w := by
    rw [hc, if_pos rfl, show (promptOf a).length = 3 from rfl]
    omega
  obtain ⟨hi, hS⟩ := start_shows ha hw r0 hcw g
  have key : ∀ s : Scr, s.row.length = w → s.lost = false → _ := fun s h1 h2 =>
    steps_kept vs i0 g ⟨ha, p0, hi, by rw [hcw]; exact hw.2⟩ hv hres hb (by rw [hcw]; exact hf) (displayAll s e0.out) (by rw [hcw]; exact hS s h1 h2)
  obtain ⟨e, z, o, r, m, l, ho, _⟩ := key ⟨List.replicate w blank, 0, false, false⟩ List.length_replicate rfl
  refine ⟨e0, e, z, r0, r, m, l, ?_⟩
  intro s h1 h2
  obtain ⟨e', z', o', r', m', _, ho', hS'⟩ := key s h1 h2
  have : e' = e := ok_inj (r'.symm.trans r)
  subst this
  have : z' = z := means_unique hres m' m
  subst this
  rw [hcw] at hS'
  rw [ho']
  unfold displayAll at hS' ⊢
  rw [List.foldl_append]
  exact hS'

/-- What is in the row after these keys, and the column of the cursor. -/
def after (w : Nat) (vs : List Ev) : Except Err Scr := do
  let e ← start (promptOf 62) true w []
  let e ← steps e vs
  .ok (displayAll ⟨List.replicate w [88], 3, false, false⟩ e.out)

/-- In a window of six columns, `abcd` takes the whole row.  After Home the cursor of the terminal is on the blank of the prompt, instead of `a`, though
the editor takes it to be on `a`. -/
theorem C86_full_violated : ∃ e, (start (promptOf 62) true 6 [] >>= fun e => steps e [.text [97], .text [98], .text [99], .text [100], .home]) = .ok e ∧
    e.cursor = ⟨0, 0⟩ ∧ e.scroll = ⟨0, 0⟩ ∧
    displayAll ⟨List.replicate 6 [32], 0, false, false⟩ e.out = ⟨[[62], [32], [97], [98], [99], [100]], 1, false, false⟩ := by
  refine ⟨_, rfl, rfl, rfl, ?_⟩
  decide +kernel

/-- `ab cé`, Left, delete the word to the left, type `x`: `> ab xé`, with the cursor on `é` -/
example : after 10 [.text [97], .text [98], .text [32], .text [99], .text [195, 169], .left, .deleteWordLeft, .text [120]] =
    .ok ⟨[[62], [32], [97], [98], [32], [120], [195, 169], [32], [32], [32]], 6, false, false⟩ := by decide +kernel

/-- `abc`, Left, Left, delete to the right, clear the window -/
example : after 8 [.text [97], .text [98], .text [99], .left, .left, .killRight, .refresh] =
    .ok ⟨[[62], [32], [97], [32], [32], [32], [32], [32]], 3, false, false⟩ := by decide +kernel

end Verif.Line
