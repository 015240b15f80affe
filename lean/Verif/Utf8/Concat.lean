import Verif.Utf8.Enc
/- Scanning and decoding of concatenated text. -/
namespace Verif.Utf8

theorem escBraces_append (t : List Nat) : ∀ (s : List Nat) (g c : Nat) (s' : List Nat),
    escBraces g s = .ok (.code c, s') → escBraces g (s ++ t) = .ok (.code c, s' ++ t) := by
  intro s
  induction s with
  | nil => intro g c s' h; simp [escBraces] at h
  | cons x s ih =>
    intro g c s' h
    rw [escBraces] at h
    rw [List.cons_append, escBraces]
    split
    · rename_i hx; rw [if_pos hx] at h
      simp only [Out.ok.injEq, Prod.mk.injEq, EscCode.code.injEq] at h
      rw [h.1, h.2]
    · rename_i hx; rw [if_neg hx] at h
      by_cases hs : s = []
      · rw [if_pos hs] at h; simp at h
      · rw [if_neg hs] at h; rw [if_neg (by simp [hs])]
        by_cases h1 : hexMap x > 15
        · rw [if_pos h1] at h; simp at h
        · rw [if_neg h1] at h ⊢
          by_cases h2 : g * 16 + hexMap x > 0x00FFFFFF
          · rw [if_pos h2] at h; simp at h
          · rw [if_neg h2] at h ⊢; exact ih _ _ _ h

theorem escBraces_notEsc : ∀ (s : List Nat) (g : Nat) (s' : List Nat), escBraces g s ≠ .ok (.notEsc, s') := by
  intro s
  induction s with
  | nil => intro g s'; simp [escBraces]
  | cons x s ih =>
    intro g s'
    rw [escBraces]
    repeat' split
    any_goals simp
    exact ih _ _

theorem parseEsc_append (s t : List Nat) (r : EscCode) (s' : List Nat) (h : parseEsc s = .ok (r, s'))
    (hr : r ≠ .invalidEsc) : parseEsc (s ++ t) = .ok (r, s' ++ t) := by
  unfold parseEsc at h ⊢
  cases s with
  | nil => simp at h; exact absurd h.1.symm hr
  | cons e rest =>
    simp only [List.cons_append] at h ⊢
    cases he : escMap e with
    | invalid => rw [he] at h; simp only [Out.ok.injEq, Prod.mk.injEq] at h ⊢; rw [← h.1, ← h.2]; exact ⟨rfl, rfl⟩
    | interpolate => rw [he] at h; simp only [Out.ok.injEq, Prod.mk.injEq] at h ⊢; rw [← h.1, ← h.2]; exact ⟨rfl, rfl⟩
    | zero => rw [he] at h; simp only [Out.ok.injEq, Prod.mk.injEq] at h ⊢; rw [← h.1, ← h.2]; exact ⟨rfl, rfl⟩
    | char c => rw [he] at h; simp only [Out.ok.injEq, Prod.mk.injEq] at h ⊢; rw [← h.1, ← h.2]; exact ⟨rfl, rfl⟩
    | hex =>
      rw [he] at h
      match rest, h with
      | [], h => simp at h; exact absurd h.1.symm hr
      | [_], h => simp at h; exact absurd h.1.symm hr
      | a :: b :: rest2, h =>
        simp only [List.cons_append] at h ⊢
        by_cases h1 : a = 123 ∧ b ≠ 125
        · rw [if_pos h1] at h ⊢
          cases r with
          | invalidEsc => exact absurd rfl hr
          | notEsc => exact absurd h (escBraces_notEsc _ _ _)
          | code c => exact escBraces_append t _ _ _ _ h
        · rw [if_neg h1] at h ⊢
          by_cases h2 : hexMap b < 16 ∧ hexMap a < 16
          · rw [if_pos h2] at h ⊢
            simp only [Out.ok.injEq, Prod.mk.injEq] at h ⊢; rw [← h.1, ← h.2]; exact ⟨rfl, rfl⟩
          · rw [if_neg h2] at h
            simp only [Out.ok.injEq, Prod.mk.injEq] at h; exact absurd h.1.symm hr

theorem contScan_append (t : List Nat) (n : Nat) : ∀ (code : Nat) (s : List Nat) (c : Nat) (s' : List Nat),
    contScan n code s = .ok (c, s') → contScan n code (s ++ t) = .ok (c, s' ++ t) := by
  induction n with
  | zero => intro code s c s' h; simp only [contScan, Out.ok.injEq, Prod.mk.injEq] at h ⊢; rw [h.1, h.2]; exact ⟨rfl, rfl⟩
  | succ n ih =>
    intro code s c s' h
    cases s with
    | nil => simp [contScan] at h
    | cons x s =>
      rw [contScan] at h
      rw [List.cons_append, contScan]
      split
      · rename_i hx; rw [if_pos hx] at h; cases h
      · rename_i hx; rw [if_neg hx] at h; exact ih _ _ _ _ h

theorem contDec_append (w : Nat) (t : List Nat) (n : Nat) : ∀ (code : Nat) (s : List Nat) (c : Nat) (s' : List Nat),
    contDec w n code s = .ok (c, s') → contDec w n code (s ++ t) = .ok (c, s' ++ t) := by
  induction n with
  | zero => intro code s c s' h; simp only [contDec, Out.ok.injEq, Prod.mk.injEq] at h ⊢; rw [h.1, h.2]; exact ⟨rfl, rfl⟩
  | succ n ih =>
    intro code s c s' h
    cases s with
    | nil => simp [contDec] at h
    | cons x s =>
      rw [contDec] at h
      rw [List.cons_append, contDec]
      split
      · rename_i hx; rw [if_pos hx] at h; cases h
      · rename_i hx; rw [if_neg hx] at h; exact ih _ _ _ _ h

/-- What a tail of a scanned character adds to the maximum does not depend on the maximum so far. -/
theorem scanTail_max (esc : Bool) (code m m2 : Nat) (s t : List Nat) (m' : Nat) (s' : List Nat)
    (h : scanTail esc code m s = .ok (m', s')) : scanTail esc code (max m2 m) (s ++ t) = .ok (max m2 m', s' ++ t) := by
  unfold scanTail at h ⊢
  split
  · rename_i hc
    rw [if_pos hc] at h
    obtain ⟨r, s1, hp, _⟩ := parseEsc_spec s
    rw [hp] at h
    cases r with
    | invalidEsc => simp at h
    | notEsc =>
      rw [parseEsc_append s t _ _ hp (by simp)]
      simp only [Out.ok.injEq, Prod.mk.injEq] at h ⊢
      rw [h.1, h.2]; exact ⟨rfl, rfl⟩
    | code c =>
      rw [parseEsc_append s t _ _ hp (by simp)]
      simp only [Out.ok.injEq, Prod.mk.injEq] at h ⊢
      rw [h.2, ← h.1]
      refine ⟨?_, rfl⟩
      split <;> split <;> omega
  · rename_i hc
    rw [if_neg hc] at h
    simp only [Out.ok.injEq, Prod.mk.injEq] at h ⊢
    rw [h.1, h.2]; exact ⟨rfl, rfl⟩

theorem scanChar_append (esc : Bool) (m m2 : Nat) (s t : List Nat) (m' : Nat) (s' : List Nat)
    (h : scanChar esc m s = .ok (m', s')) : scanChar esc (max m2 m) (s ++ t) = .ok (max m2 m', s' ++ t) := by
  cases s with
  | nil => simp [scanChar] at h
  | cons c s =>
    rw [scanChar_cons] at h
    rw [List.cons_append, scanChar_cons]
    split
    · rename_i hc; rw [if_pos hc] at h
      exact scanTail_max _ _ _ _ _ _ _ _ h
    · rename_i hc; rw [if_neg hc] at h
      by_cases h1 : codeLen c = 0 ∨ codeLen c - 1 > s.length ∨ c < 0xC2
      · rw [if_pos h1] at h; cases h
      · rw [if_neg h1] at h
        rw [if_neg (by simp only [List.length_append]; omega)]
        cases hs : contScan (codeLen c - 1) (c &&& ((0x80 >>> codeLen c) - 1)) s with
        | err => rw [hs] at h; cases h
        | ub => rw [hs] at h; cases h
        | ok p =>
          obtain ⟨code, s1⟩ := p
          rw [hs] at h
          rw [contScan_append t _ _ _ _ _ hs]
          simp only at h ⊢
          have e : (if code > max m2 m then code else max m2 m) = max m2 (if code > m then code else m) := by
            split <;> split <;> omega
          rw [e]
          exact scanTail_max _ _ _ _ _ _ _ _ h

theorem decodeChar_append (esc : Bool) (w : Nat) (s t : List Nat) (c' : Nat) (s' : List Nat)
    (h : decodeChar esc w s = .ok (c', s')) : decodeChar esc w (s ++ t) = .ok (c', s' ++ t) := by
  have tail : ∀ c s, decodeTail esc w c s = .ok (c', s') → decodeTail esc w c (s ++ t) = .ok (c', s' ++ t) := by
    intro c s h
    unfold decodeTail at h ⊢
    split
    · rename_i hc
      rw [if_pos hc] at h
      obtain ⟨r, s1, hp, _⟩ := parseEsc_spec s
      rw [hp] at h
      cases r with
      | invalidEsc => simp at h
      | notEsc =>
        rw [parseEsc_append s t _ _ hp (by simp)]
        simp only [Out.ok.injEq, Prod.mk.injEq] at h ⊢
        rw [h.1, h.2]; exact ⟨rfl, rfl⟩
      | code c =>
        rw [parseEsc_append s t _ _ hp (by simp)]
        simp only at h ⊢
        split
        · rename_i hl; rw [if_pos hl] at h
          simp only [Out.ok.injEq, Prod.mk.injEq] at h ⊢
          rw [h.1, h.2]; exact ⟨rfl, rfl⟩
        · rename_i hl; rw [if_neg hl] at h; cases h
    · rename_i hc
      rw [if_neg hc] at h
      simp only [Out.ok.injEq, Prod.mk.injEq] at h ⊢
      rw [h.1, h.2]; exact ⟨rfl, rfl⟩
  cases s with
  | nil => simp [decodeChar] at h
  | cons c s =>
    rw [decodeChar_cons] at h
    rw [List.cons_append, decodeChar_cons]
    split
    · rename_i hc; rw [if_pos hc] at h
      split
      · rename_i h1; rw [if_pos h1] at h; cases h
      · rename_i h1; rw [if_neg h1] at h
        cases hs : contDec w (codeLen c - 1) (c &&& ((0x80 >>> codeLen c) - 1)) s with
        | err => rw [hs] at h; cases h
        | ub => rw [hs] at h; cases h
        | ok p =>
          obtain ⟨code, s1⟩ := p
          rw [hs] at h
          rw [contDec_append w t _ _ _ _ _ hs]
          exact tail _ _ h
    · rename_i hc; rw [if_neg hc] at h
      exact tail _ _ h

/-- Scan of `a ++ b` from the scan of `a`: goes on with `b`. -/
theorem slow_append (esc : Bool) (b : List Nat) : ∀ fuel c0 m0 m2 d0 a n m,
    slowLoop esc fuel c0 m0 a = .ok (n, m) → a.length < fuel →
    slowLoop esc ((a ++ b).length + 1) (d0 + c0) (max m2 m0) (a ++ b) = slowLoop esc (b.length + 1) (d0 + n) (max m2 m) b := by
  intro fuel
  induction fuel with
  | zero => intro c0 m0 m2 d0 a n m _ h; omega
  | succ fuel ih =>
    intro c0 m0 m2 d0 a n m h hf
    rw [slowLoop] at h
    by_cases ha : a = []
    · rw [if_pos ha] at h
      simp only [Out.ok.injEq, Prod.mk.injEq] at h
      rw [h.1, h.2, ha, List.nil_append]
    · rw [if_neg ha] at h
      rcases scanChar_spec esc m0 a ha with he | ⟨m', s', he, hs, hl, hm⟩
      · rw [he] at h; cases h
      · rw [he] at h
        simp only at h
        rw [slowLoop, if_neg (by simp [ha]), scanChar_append esc m0 m2 a b m' s' he]
        simp only
        rw [slowLoop_fuel esc _ ((s' ++ b).length + 1) _ _ _ (by simp only [List.length_append]; omega) (by omega)]
        exact ih _ _ _ _ _ _ _ h (by omega)

theorem decode_fuel (esc : Bool) (w : Nat) : ∀ f1 f2 str out, decodeLoop esc w f1 str = .ok out → f1 ≤ f2 →
    decodeLoop esc w f2 str = .ok out := by
  intro f1
  induction f1 with
  | zero => intro f2 str out h; simp [decodeLoop] at h
  | succ f1 ih =>
    intro f2 str out h hl
    obtain ⟨f2, rfl⟩ : ∃ k, f2 = k + 1 := ⟨f2 - 1, by omega⟩
    rw [decodeLoop] at h ⊢
    by_cases hs : str = []
    · rw [if_pos hs] at h ⊢; exact h
    · rw [if_neg hs] at h ⊢
      cases hd : decodeChar esc w str with
      | err => rw [hd] at h; cases h
      | ub => rw [hd] at h; cases h
      | ok p =>
        obtain ⟨c, s⟩ := p
        rw [hd] at h
        simp only at h ⊢
        cases hr : decodeLoop esc w f1 s with
        | err => rw [hr] at h; cases h
        | ub => rw [hr] at h; cases h
        | ok o =>
          rw [hr] at h
          rw [ih f2 s o hr (by omega)]
          exact h

theorem decode_append (esc : Bool) (w : Nat) (b : List Nat) (outB : List Nat) (fB : Nat)
    (hb : decodeLoop esc w fB b = .ok outB) : ∀ fuel a outA, decodeLoop esc w fuel a = .ok outA →
    decodeLoop esc w (fuel + fB) (a ++ b) = .ok (outA ++ outB) := by
  intro fuel
  induction fuel with
  | zero => intro a outA h; simp [decodeLoop] at h
  | succ fuel ih =>
    intro a outA h
    rw [decodeLoop] at h
    by_cases ha : a = []
    · rw [if_pos ha] at h
      injection h with h
      rw [ha, ← h]
      exact decode_fuel esc w fB _ b outB hb (by omega)
    · rw [if_neg ha] at h
      rw [show fuel + 1 + fB = fuel + fB + 1 by omega, decodeLoop, if_neg (by simp [ha])]
      cases hd : decodeChar esc w a with
      | err => rw [hd] at h; cases h
      | ub => rw [hd] at h; cases h
      | ok p =>
        obtain ⟨c, s⟩ := p
        rw [hd] at h
        rw [decodeChar_append esc w a b c s hd]
        simp only at h ⊢
        cases hr : decodeLoop esc w fuel s with
        | err => rw [hr] at h; cases h
        | ub => rw [hr] at h; cases h
        | ok o =>
          rw [hr] at h
          rw [ih s o hr]
          simp only [Out.ok.injEq] at h ⊢
          rw [← h]; rfl

/-! ### The decoded text does not depend on the width, if it is wide enough -/

theorem tail_same (esc : Bool) (w1 w2 code m : Nat) (s : List Nat) (m' : Nat) (s' : List Nat) (M : Nat)
    (h : scanTail esc code m s = .ok (m', s')) (hm : m' ≤ M) (h1 : M < 2 ^ w1) (h2 : M < 2 ^ w2) :
    decodeTail esc w1 code s = decodeTail esc w2 code s := by
  unfold scanTail at h
  unfold decodeTail
  by_cases he : esc = true ∧ code = 92
  · rw [if_pos he] at h ⊢
    rw [if_pos he]
    obtain ⟨r, s1, e, _⟩ := parseEsc_spec s
    rw [e] at h ⊢
    cases r with
    | invalidEsc => cases h
    | notEsc => rfl
    | code x =>
      simp only [Out.ok.injEq, Prod.mk.injEq] at h ⊢
      have hx : x ≤ M := by
        obtain ⟨h1, _⟩ := h
        split at h1 <;> omega
      rw [if_pos (by omega), if_pos (by omega)]
  · rw [if_neg he, if_neg he]

theorem char_same (esc : Bool) (w1 w2 m : Nat) (str : List Nat) (m' : Nat) (s' : List Nat) (M : Nat)
    (h : scanChar esc m str = .ok (m', s')) (hm : m' ≤ M) (h1 : M < 2 ^ w1) (h2 : M < 2 ^ w2)
    (k1 : 6 ≤ w1) (k2 : 6 ≤ w2) : decodeChar esc w1 str = decodeChar esc w2 str := by
  cases str with
  | nil => simp [scanChar] at h
  | cons c s =>
    rw [scanChar_cons] at h
    rw [decodeChar_cons, decodeChar_cons]
    by_cases hc : c < 0x80
    · rw [if_pos hc] at h
      have hc' : ¬ c > 0x7F := by omega
      rw [if_neg hc', if_neg hc']
      exact tail_same esc w1 w2 c m s m' s' M h hm h1 h2
    · rw [if_neg hc] at h
      have hc' : c > 0x7F := by omega
      rw [if_pos hc', if_pos hc']
      by_cases hl : codeLen c = 0 ∨ codeLen c - 1 > s.length ∨ c < 0xC2
      · rw [if_pos hl] at h; cases h
      · rw [if_neg hl] at h
        have h3 := codeLen_ge2 c (by omega) (by omega)
        have h3' : ¬ codeLen c < 2 := by omega
        rw [if_neg h3', if_neg h3']
        have h5 := first_small c (by omega) (by omega)
        have p1 : (2:Nat) ^ 6 ≤ 2 ^ w1 := Nat.pow_le_pow_right (by decide) k1
        have p2 : (2:Nat) ^ 6 ≤ 2 ^ w2 := Nat.pow_le_pow_right (by decide) k2
        cases e : contScan (codeLen c - 1) (c &&& ((0x80 >>> codeLen c) - 1)) s with
        | err => rw [e] at h; cases h
        | ub => rw [e] at h; cases h
        | ok p =>
          obtain ⟨code, s1⟩ := p
          rw [e] at h
          simp only at h
          have q1 := contDec_eq w1 _ _ _ _ _ e
          have q2 := contDec_eq w2 _ _ _ _ _ e
          rw [Nat.mod_eq_of_lt (a := c &&& _) (by omega)] at q1 q2
          have hcode : code ≤ M := by
            rcases scanTail_spec esc code (if code > m then code else m) s1 with e' | ⟨a, b, e', _, h6⟩
            · rw [e'] at h; cases h
            · rw [e'] at h
              simp only [Out.ok.injEq, Prod.mk.injEq] at h
              split at h6 <;> omega
          rw [Nat.mod_eq_of_lt (a := code) (by omega)] at q1 q2
          rw [q1, q2]
          exact tail_same esc w1 w2 code _ s1 m' s' M h hm h1 h2

theorem decode_same (esc : Bool) (w1 w2 : Nat) (k1 : 6 ≤ w1) (k2 : 6 ≤ w2) : ∀ fuel c0 m0 str n m M,
    slowLoop esc fuel c0 m0 str = .ok (n, m) → m ≤ M → 0x7F ≤ M → M < 2 ^ w1 → M < 2 ^ w2 →
    decodeLoop esc w1 fuel str = decodeLoop esc w2 fuel str := by
  intro fuel
  induction fuel with
  | zero => intro c0 m0 str n m M h; simp [slowLoop] at h
  | succ fuel ih =>
    intro c0 m0 str n m M h hm h0 h1 h2
    unfold slowLoop at h
    unfold decodeLoop
    by_cases he : str = []
    · rw [if_pos he, if_pos he]
    · rw [if_neg he] at h
      rw [if_neg he, if_neg he]
      rcases scanChar_spec esc m0 str he with e | ⟨m', s', e, _, _, _⟩
      · rw [e] at h; cases h
      · rw [e] at h
        simp only at h
        have hm' := slowLoop_mono esc _ _ _ _ _ _ h
        have hc := char_same esc w1 w2 m0 str m' s' M e (by omega) h1 h2 k1 k2
        rw [hc]
        cases hd : decodeChar esc w2 str with
        | err => rfl
        | ub => rfl
        | ok p =>
          obtain ⟨c, s⟩ := p
          have hs : s = s' := by
            obtain ⟨x, ex, _⟩ := char_agree esc w2 m0 str m' s' M e (by omega) h0 h2 k2
            rw [hd] at ex; simp only [Out.ok.injEq, Prod.mk.injEq] at ex; exact ex.2
          simp only
          rw [hs, ih _ _ _ _ _ M h hm h0 h1 h2]

end Verif.Utf8
