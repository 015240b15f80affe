import Verif.Line.Steps

/-!
C85: the line editor of the interactive interpreter (core/kos_getline.c, for systems other than Windows).

Full statement: whatever bytes are typed, no assertion fails, nothing outside of the line is read, each key changes the text as it says, and Up and
Down bring back the lines entered before.

What is proved: this holds if what is typed is made of complete characters in UTF-8, and lines are shorter than 65536 bytes.  Both are needed.
Which key calls which function, Ctrl-C, the end of the input, and changes of the size of the window between the bytes of one character are left out.
-/
namespace Verif.Line

/-- One call.  `hs` has the lines entered before, the latest first; `N` is the length of the longest of them, in bytes.  The call returns the text
which the keys mean, and adds it to the history, unless it is empty. -/
theorem C85_getline_partial {prompt : List Nat} (hp : 1 ≤ prompt.length ∧ prompt.length ≤ 100) (inter : Bool) (w : Nat) {hist : List Node}
    {hs : List (List (List Nat))} (hh : Reps hist hs) {N : Nat} (hN : ∀ o ∈ hs, o.flatten.length ≤ N) {vs : List Ev} (hv : ∀ v ∈ vs, Legal v)
    (hb : N + typed vs < 65536) :
    ∃ z hist', getline prompt inter w hist vs = .ok (z.chars.flatten, hist') ∧ MeansAll prompt.length ⟨[], 0, hs, []⟩ vs z ∧
      Reps hist' (if z.chars = [] then hs else z.chars :: hs) := by
  obtain ⟨z, hist', h1, h2, h3, _⟩ := getline_ok hp inter w hh hN hv hb
  exact ⟨z, hist', h1, h2, h3⟩

/-- The lines of a session, from its calls: the width of the window and the keys. -/
def session (prompt : List Nat) (inter : Bool) : List Node → List (Nat × List Ev) → Except Err (List (List Nat))
  | _, [] => .ok []
  | hist, (w, vs) :: calls => do
    let (line, hist) ← getline prompt inter w hist vs
    let lines ← session prompt inter hist calls
    .ok (line :: lines)

/-- What they mean. -/
inductive Session (p : Nat) : List (List (List Nat)) → List (Nat × List Ev) → List (List Nat) → Prop
  | nil (hs : List (List (List Nat))) : Session p hs [] []
  | cons {hs : List (List (List Nat))} {w : Nat} {vs : List Ev} {z : Text} {calls : List (Nat × List Ev)} {lines : List (List Nat)}
      (h : MeansAll p ⟨[], 0, hs, []⟩ vs z) (t : Session p (if z.chars = [] then hs else z.chars :: hs) calls lines) :
      Session p hs ((w, vs) :: calls) (z.chars.flatten :: lines)

/-- How many bytes are typed in a session. -/
def typedIn : List (Nat × List Ev) → Nat
  | [] => 0
  | (_, vs) :: calls => typed vs + typedIn calls

/-- Any number of calls, each of which has the history left by the one before. -/
theorem C85_session_partial {prompt : List Nat} (hp : 1 ≤ prompt.length ∧ prompt.length ≤ 100) (inter : Bool) :
    ∀ (calls : List (Nat × List Ev)) {hist : List Node} {hs : List (List (List Nat))} {N : Nat}, Reps hist hs → (∀ o ∈ hs, o.flatten.length ≤ N) →
    (∀ c ∈ calls, ∀ v ∈ c.2, Legal v) → N + typedIn calls < 65536 →
    ∃ lines, session prompt inter hist calls = .ok lines ∧ Session prompt.length hs calls lines := by
  intro calls
  induction calls with
  | nil => intro hist hs N _ _ _ _; exact ⟨[], rfl, .nil hs⟩
  | cons c calls ih =>
    obtain ⟨w, vs⟩ := c
    intro hist hs N hh hN hv hb
    simp only [typedIn] at hb
    obtain ⟨z, hist', r, m, hh', hz⟩ := getline_ok hp inter w hh hN (vs := vs) (hv (w, vs) (by simp)) (by omega)
    obtain ⟨lines, r', t⟩ := ih (N := N + typed vs) hh' (by
      intro o ho
      split at ho
      · exact Nat.le_trans (hN o ho) (by omega)
      · rcases List.mem_cons.mp ho with rfl | ho
        · exact hz
        · exact Nat.le_trans (hN o ho) (by omega)) (fun c hc => hv c (List.mem_cons_of_mem _ hc)) (by omega)
    exact ⟨_, by simp only [session, r, ok_bind, r'], .cons m t⟩

theorem nearestLeft_unique {t : List (List Nat)} {n a b : Nat} (ha : NearestLeft t n a) (hb : NearestLeft t n b) : a = b := by
  rcases ha with ⟨h, rfl⟩ | ⟨h1, h2, h3⟩ <;> rcases hb with ⟨k, rfl⟩ | ⟨k1, k2, k3⟩
  · rfl
  · omega
  · omega
  · rcases Nat.lt_trichotomy a b with h | h | h
    · exact absurd k2 (h3 b h k1)
    · exact h
    · exact absurd h2 (k3 a h h1)

theorem nearestRight_unique {t : List (List Nat)} {n a b : Nat} (ha : NearestRight t n a) (hb : NearestRight t n b) : a = b := by
  rcases ha with ⟨h, rfl⟩ | ⟨h1, h4, h2, h3⟩ <;> rcases hb with ⟨k, rfl⟩ | ⟨k1, k4, k2, k3⟩
  · rfl
  · omega
  · omega
  · rcases Nat.lt_trichotomy a b with h | h | h
    · exact absurd h2 (k3 a h1 h)
    · exact h
    · exact absurd k2 (h3 b k1 h)

/-- What a key means is one text and one place of the cursor, except when the window is made too narrow. -/
theorem C85_one_meaning {p : Nat} {z a b : Text} {v : Ev} (hv : ∀ w, v ≠ .resize w) (ha : Means p z v a) (hb : Means p z v b) : a = b := by
  cases v with
  | resize w => exact absurd rfl (hv w)
  | wordLeft =>
    obtain ⟨m, h1, h2⟩ := ha; obtain ⟨k, k1, k2⟩ := hb
    rw [h2, k2, nearestLeft_unique h1 k1]
  | wordRight =>
    obtain ⟨m, h1, h2⟩ := ha; obtain ⟨k, k1, k2⟩ := hb
    rw [h2, k2, nearestRight_unique h1 k1]
  | deleteWordLeft =>
    obtain ⟨m, h1, h2⟩ := ha; obtain ⟨k, k1, k2⟩ := hb
    rw [h2, k2, nearestLeft_unique h1 k1]
  | deleteWordRight =>
    obtain ⟨m, h1, h2⟩ := ha; obtain ⟨k, k1, k2⟩ := hb
    rw [h2, k2, nearestRight_unique h1 k1]
  | up =>
    simp only [Means] at ha hb
    split at ha
    · rename_i h; rw [h] at hb; exact ha.trans hb.symm
    · rename_i h; rw [h] at hb; exact ha.trans hb.symm
  | down =>
    simp only [Means] at ha hb
    split at ha
    · rename_i h; rw [h] at hb; exact ha.trans hb.symm
    · rename_i h; rw [h] at hb; exact ha.trans hb.symm
  | _ => exact ha.trans hb.symm

deriving instance DecidableEq for Except

/-- `"\r> "` -/
def prompt : List Nat := [13, 62, 32]

/-- The first byte of a character of two bytes (or a letter in Latin-1), then Left: the index of the byte before the line is used. -/
theorem C85_invalid_violated : getline prompt true 80 [] [.text [195], .left] = .error .ub := by decide +kernel

/-- A tail without a first byte counts as a character, but moving to the left skips it together with the character before it; moving once more fails
an assertion. -/
theorem C85_tail_violated : getline prompt true 80 [] [.text [97], .text [128], .left, .left] = .error .assert := by decide +kernel

theorem err_bind {α β : Type} (x : Err) (f : α → Except Err β) : (Except.error x >>= f) = .error x := rfl

/-- A line of 32769 characters of two bytes, entered before: its size is kept modulo 65536, so Up restores two bytes, and the cursor is put after
character 32769 of them. -/
theorem C85_long_violated (rest : List Nat) (h : rest.length = 65536) :
    getline prompt true 80 [{ newNode (195 :: 169 :: rest) 32769 with persistent := true }] [.up] = .error .ub := by
  have hn : newNode (195 :: 169 :: rest) 32769 = ⟨195 :: 169 :: rest, 65552, 16, 2, 32769, false⟩ := by
    simp [newNode, h]
  rw [hn]
  obtain ⟨e, r, g, h1, h2, _, h4, _, h5⟩ := start_raw (prompt := prompt) (by decide) true 80 [⟨195 :: 169 :: rest, 65552, 16, 2, 32769, true⟩]
  have hc : e.cols = 80 := h5
  have hsv : save e = .ok e.node := by
    have : e.line = [] := g.line
    unfold save
    rw [if_pos (by rw [this, h4]; exact ⟨rfl, rfl⟩)]
  have hd : decTo [195, 169] (add32 (sub32 32769 80) 3) ⟨32769, 2⟩ = .error .ub := by decide +kernel
  have hl : ∀ e' : Ed, e'.prompt = prompt → e'.cols = 80 → e'.node = ⟨195 :: 169 :: rest, 65552, 16, 2, 32769, true⟩ → restore e' = .error .ub := by
    intro e' a1 a2 a3
    unfold restore
    rw [a1, a2, a3]
    simp only [List.take_succ_cons, List.take_zero, List.length_cons, List.length_nil, Nat.zero_add, Nat.reduceAdd, show prompt.length = 3 from rfl]
    rw [if_pos (by decide), hd, err_bind]
  unfold getline
  rw [r, ok_bind]
  simp only [steps, step, goUp, h2, hsv, ok_bind]
  rw [hl { e with node := ⟨195 :: 169 :: rest, 65552, 16, 2, 32769, true⟩, older := [], newer := e.node :: e.newer } h1 hc rfl, err_bind, err_bind]

/-- A line of 65536 bytes, entered before, comes back empty. -/
theorem C85_longer_violated (bs : List Nat) (h : bs.length = 65536) :
    ∃ hist', getline prompt true 80 [{ newNode bs 65536 with persistent := true }] [.up] = .ok ([], hist') := by
  have hn : newNode bs 65536 = ⟨bs, 65536, 0, 0, 0, false⟩ := by
    simp [newNode, h]
  rw [hn]
  have hr : NodeRep ⟨bs, 65536, 0, 0, 0, true⟩ [] := ⟨rfl, rfl, rfl, Nat.zero_le _, by simp, by simp⟩
  obtain ⟨z, hist', r, m, _⟩ := C85_getline_partial (prompt := prompt) (by decide) true 80 (.cons hr .nil) (N := 0) (by simp) (vs := [.up]) (by simp [Legal]) (by decide)
  refine ⟨hist', ?_⟩
  cases m with
  | cons h1 h2 =>
    cases h2
    simp only [Means] at h1
    rw [h1] at r
    exact r

/-- `ab cé`, Left, delete the word to the left, type `x`: `ab xé` -/
example : getline prompt true 80 [] [.text [97], .text [98], .text [32], .text [99], .text [195, 169], .left, .deleteWordLeft, .text [120]] =
    .ok ([97, 98, 32, 120, 195, 169], [⟨[97, 98, 32, 120, 195, 169], 16, 16, 6, 5, true⟩]) := by decide +kernel

/-- Two calls in a narrow window: `é1`, then Up, Left, `z`, Home, Delete: `z1` -/
example : session prompt true [] [(5, [.text [195, 169], .text [49]]), (5, [.up, .left, .text [122], .home, .delete])] =
    .ok [[195, 169, 49], [122, 49]] := by decide +kernel

/-- Text which is changed and left with Up is there after Down. -/
example : session prompt true [] [(80, [.text [97]]), (80, [.text [98], .up, .text [99], .down, .up])] = .ok [[97], [97, 99]] := by decide +kernel

/-- The line scrolls in a window of five columns. -/
example : (do
      let e ← start prompt true 5 []
      let e ← steps e [.text [97], .text [98], .text [99], .text [195, 169], .home]
      .ok (e.cursor, e.scroll, e.last)) = Except.ok (ε := Err) (⟨0, 0⟩, ⟨0, 0⟩, 2) := by decide +kernel

example : NearestLeft [[97], [98], [32], [99], [100]] 5 3 :=
  Or.inr ⟨by decide, Or.inr (by decide), fun j h1 h2 => by
    obtain rfl : j = 4 := by omega
    rintro (h | h)
    · omega
    · exact absurd h (by decide)⟩

end Verif.Line
