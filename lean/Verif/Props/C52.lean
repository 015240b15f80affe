import Verif.Lexer.TokenLemmas
import Verif.Props.C14
/-
C52: tokens tile the source.  Every token is a non-empty stretch of the source, the next token starts where it ends, the
end of the source is reached, and nothing outside of the source is read.
-/
namespace Verif.Props
open Verif.Lexer

theorem opLoop_len : ∀ (input : List Nat) (g : List (List Nat × Op)) (idx : Nat) (op : Op) (len : Nat),
    opLoop input g idx = .tok op len → idx ≤ len ∧ len ≤ idx + input.length := by
  intro input
  induction input with
  | nil =>
    intro g idx op len h
    unfold opLoop at h
    cases hg : g.head? with
    | none => rw [hg] at h; cases h
    | some e =>
      obtain ⟨s, o⟩ := e
      rw [hg] at h
      simp only at h
      cases hs : strAt s idx with
      | none => rw [hs] at h; cases h
      | some cur => rw [hs] at h; simp only [OpRes.tok.injEq] at h; simp; omega
  | cons b rest ih =>
    intro g idx op len h
    unfold opLoop at h
    cases hg : g.head? with
    | none => rw [hg] at h; cases h
    | some e =>
      obtain ⟨s, o⟩ := e
      rw [hg] at h
      simp only at h
      cases hs : strAt s idx with
      | none => rw [hs] at h; cases h
      | some cur =>
        rw [hs] at h
        simp only at h
        split at h
        · cases ha : advance b idx g cur with
          | none => rw [ha] at h; cases h
          | some q =>
            obtain ⟨g', c'⟩ := q
            rw [ha] at h
            simp only at h
            split at h
            · have := ih _ _ _ _ h; simp only [List.length_cons]; omega
            · simp only [OpRes.tok.injEq] at h; simp only [List.length_cons]; omega
        · simp only [OpRes.tok.injEq] at h; simp only [List.length_cons]; omega

theorem opToken_spec (first : Nat) (h : first ∈ 47 :: opBytes) (rest : List Nat) :
    ∃ op e, opToken first rest = .ok (.operator op, e) ∧ e <:+ rest := by
  unfold opToken
  have := collect_isTok first h rest
  cases hc : collectOperator first rest with
  | oob => rw [hc] at this; cases this
  | tok op len => exact ⟨op, _, rfl, List.drop_suffix _ _⟩

/-- A token: an error, or a token other than the end of the source which ends later. -/
def Advances (b : List Nat) (r : Res (TT × List Nat)) : Prop :=
  r = .err ∨ ∃ t e, r = .ok (t, e) ∧ e <:+ b ∧ e.length < b.length ∧ t ≠ .eof

theorem mapRes_good (b b' : List Nat) (r : Res (List Nat)) (f : List Nat → TT) (hf : ∀ e, f e ≠ .eof) (h : Good b' r)
    (hs : b' <:+ b) (hl : b'.length < b.length) : Advances b (mapRes r f) := by
  rcases h with h | ⟨e, h, he⟩
  · left; rw [h]; rfl
  · right; exact ⟨f e, e, by rw [h]; rfl, he.trans hs, by have := he.length_le; omega, hf e⟩

theorem good_of (b : List Nat) (r : Res (List Nat)) (h : ∃ e, r = .ok e ∧ e <:+ b) : Good b r := Or.inr h

theorem ident_advances (b e : List Nat) (hs : e <:+ b) (hl : e.length < b.length) : Advances b (identToken b e) := by
  unfold identToken
  refine mapRes_good b e _ _ ?_ (good_of _ _ (collectIdentifier_spec e)) hs hl
  intro e'; split <;> simp

theorem stringType_ne (b e : List Nat) : stringType b e ≠ .eof := by unfold stringType; split <;> simp

theorem hex_ascii : ∀ x, hexOrUnderscore x = true → x < 128 ∧ x ≠ 13 := by
  intro x h
  simp only [hexOrUnderscore, charIsHex, Bool.or_eq_true, Bool.and_eq_true, decide_eq_true_eq, beq_iff_eq] at h
  omega
theorem bin_ascii : ∀ x, binOrUnderscore x = true → x < 128 ∧ x ≠ 13 := by
  intro x h
  simp only [binOrUnderscore, Bool.or_eq_true, beq_iff_eq] at h
  omega

theorem type_operator (x : Nat) (s : List Nat) (h : (prefetch (x :: s)).1 = .operator) : x ∈ opBytes := by
  rcases prefetch_type x s with h1 | h1 | h1 | h1 <;> rw [h1] at h
  · exact (lexemType_class x).1 h
  all_goals cases h

theorem type_slash (x : Nat) (s : List Nat) (h : (prefetch (x :: s)).1 = .slash) : x = 47 := by
  rcases prefetch_type x s with h1 | h1 | h1 | h1 <;> rw [h1] at h
  · exact (lexemType_class x).2.1 h
  all_goals cases h

theorem any_advances (x : Nat) (s : List Nat) : Advances (x :: s) (tokenAny (x :: s)) := by
  obtain ⟨p1, p2, p3⟩ := prefetch_spec (x :: s)
  have hsuf := List.suffix_cons x s
  have hop := type_operator x s
  have hsl := type_slash x s
  simp only [tokenAny]
  generalize prefetch (x :: s) = pf at p1 p2 p3 hop hsl
  obtain ⟨c, e⟩ := pf
  simp only at p1 p2 p3 hop hsl ⊢
  have hl : c ≠ .invalidUtf8 → e.length < (x :: s).length := p2 (by simp)
  cases c with
  | whitespace =>
    exact mapRes_good _ e _ _ (by simp) (good_of _ _ (collectWhitespace_spec e)) p1 (hl (by simp))
  | eol => right; exact ⟨_, _, rfl, p1, hl (by simp), by simp⟩
  | letter =>
    simp only
    split
    · split
      · obtain ⟨q1, _, _⟩ := prefetch_spec e
        exact mapRes_good _ _ _ _ (by simp) (collectRaw_spec _ _ (Nat.lt_succ_self _)) (q1.trans p1)
          (by have := q1.length_le; have := hl (by simp); omega)
      · exact ident_advances _ _ p1 (hl (by simp))
    · exact ident_advances _ _ p1 (hl (by simp))
  | underscore => exact ident_advances _ _ p1 (hl (by simp))
  | string =>
    exact mapRes_good _ _ _ _ (stringType_ne _) (collectString_spec _ _ (Nat.lt_succ_self _)) p1 (hl (by simp))
  | digit =>
    obtain ⟨q1, _, _⟩ := prefetch_spec e
    have hl' := hl (by simp)
    have := q1.length_le
    simp only
    split
    · split
      · exact mapRes_good _ _ _ _ (by simp) (collectDigits_spec _ hex_ascii _) (q1.trans p1) (by omega)
      · split
        · exact mapRes_good _ _ _ _ (by simp) (collectDigits_spec _ bin_ascii _) (q1.trans p1) (by omega)
        · exact mapRes_good _ _ _ _ (by simp) (collectDecimal_spec _ _) p1 hl'
    · exact mapRes_good _ _ _ _ (by simp) (collectDecimal_spec _ _) p1 hl'
  | operator =>
    obtain ⟨op, e', h1, h2⟩ := opToken_spec x (List.mem_cons_of_mem _ (hop rfl)) s
    right; exact ⟨_, e', h1, h2.trans hsuf, by have := h2.length_le; simp; omega, by simp⟩
  | separator => right; exact ⟨_, _, rfl, p1, hl (by simp), by simp⟩
  | slash =>
    obtain ⟨q1, _, _⟩ := prefetch_spec e
    have hl' := hl (by simp)
    have := q1.length_le
    simp only
    split
    · split
      · exact mapRes_good _ _ _ _ (by simp) (good_of _ _ (collectUntilEol_spec _)) (q1.trans p1) (by omega)
      · split
        · exact mapRes_good _ _ _ _ (by simp) (good_of _ _ (collectBlockComment_spec _)) (q1.trans p1) (by omega)
        · obtain ⟨op, e', h1, h2⟩ := opToken_spec x (by rw [hsl rfl]; simp) s
          right; exact ⟨_, e', h1, h2.trans hsuf, by have := h2.length_le; simp; omega, by simp⟩
    · right; exact ⟨_, _, rfl, q1.trans p1, by omega, by simp⟩
  | comment => exact mapRes_good _ e _ _ (by simp) (good_of _ _ (collectUntilEol_spec e)) p1 (hl (by simp))
  | eof => left; rfl
  | invalid => left; rfl
  | backslash => left; rfl
  | tab => left; rfl
  | utf8Tail => left; rfl
  | utf8Two => left; rfl
  | utf8Three => left; rfl
  | utf8Four => left; rfl
  | invalidUtf8 => left; rfl

theorem cont_advances (b : List Nat) : Advances b (tokenCont b) := by
  unfold tokenCont
  cases b with
  | nil => left; rfl
  | cons x s =>
    simp only
    split
    · left; rfl
    · exact mapRes_good _ _ _ _ (stringType_ne _) (collectString_spec _ _ (Nat.lt_succ_self _)) (List.suffix_cons x s) (by simp)

namespace C52.Spec
/-- What one call may do on source text `b`: fail, report the end of an empty text, or split off a non-empty token of at
most 65535 bytes. -/
inductive Step (b : List Nat) : Res (TT × List Nat) → Prop
  | error : Step b .err
  | eof : b = [] → Step b (.ok (.eof, []))
  | token (t : TT) (text rest : List Nat) : b = text ++ rest → text ≠ [] → text.length ≤ 0xFFFF → t ≠ .eof →
      Step b (.ok (t, rest))
end C52.Spec
open C52.Spec

theorem step_of (b : List Nat) (r : Res (TT × List Nat)) (h : Advances b r) : Step b (checkLen b r) := by
  rcases h with h | ⟨t, e, h, hs, hl, hne⟩
  · rw [h]; exact .error
  · rw [h]
    obtain ⟨text, rfl⟩ := hs
    simp only [checkLen]
    split
    · exact .error
    · rename_i h'
      rw [List.length_append] at h' hl
      refine .token t text e rfl ?_ (by omega) hne
      intro h0; rw [h0] at hl; simp at hl

/-- Ordinary mode. -/
theorem C52_next_token (b : List Nat) : Step b (nextToken b) := by
  cases b with
  | nil => exact .eof rfl
  | cons x s => exact step_of _ _ (any_advances x s)

/-- Continuation of an interpolated string. -/
theorem C52_next_continuation (b : List Nat) : Step b (nextCont b) := step_of _ _ (cont_advances b)

/-- The sequence of tokens of a source text; `mode` is the parser's choice whether the next token continues an
interpolated string, depending on the tokens so far.  `none`: out of fuel. -/
def lexAll (mode : List (TT × List Nat) → Bool) : Nat → List (TT × List Nat) → List Nat →
    Option (Res (List (TT × List Nat)))
  | 0, _, _ => none
  | fuel + 1, acc, b =>
    match (if mode acc then nextCont b else nextToken b) with
    | .err => some .err
    | .ub => some .ub
    | .ok (t, e) => if t = .eof then some (.ok acc) else lexAll mode fuel (acc ++ [(t, between b e)]) e

/-- Whatever the parser does, the text is scanned to its end or to the first error in at most as many tokens as there are
bytes, and then the texts of the tokens, one after the other, are the source. -/
theorem C52_tiling (mode : List (TT × List Nat) → Bool) : ∀ fuel acc b, b.length < fuel →
    lexAll mode fuel acc b = some .err ∨
    ∃ toks, lexAll mode fuel acc b = some (.ok toks) ∧ (toks.flatMap Prod.snd) = acc.flatMap Prod.snd ++ b := by
  intro fuel
  induction fuel with
  | zero => intro acc b h; omega
  | succ fuel ih =>
    intro acc b h
    rw [lexAll]
    have hstep : Step b (if mode acc then nextCont b else nextToken b) := by
      split
      · exact C52_next_continuation b
      · exact C52_next_token b
    generalize (if mode acc then nextCont b else nextToken b) = r at hstep
    cases hstep with
    | error => left; rfl
    | eof hb => right; exact ⟨acc, rfl, by rw [hb]; simp⟩
    | token t text rest hb hne hl ht =>
      simp only
      rw [if_neg ht]
      have hbt : between b rest = text := by
        rw [hb]; simp [between]
      rw [hbt]
      have hlen : 0 < text.length := List.length_pos_iff.mpr hne
      rcases ih (acc ++ [(t, text)]) rest (by rw [hb] at h; simp at h; omega) with h1 | ⟨toks, h1, h2⟩
      · left; exact h1
      · right; exact ⟨toks, h1, by rw [h2, hb]; simp⟩

theorem collectOperator_len (c : Nat) (rest : List Nat) (op : Op) (len : Nat) (h : collectOperator c rest = .tok op len) :
    1 ≤ len ∧ len ≤ rest.length + 1 := by
  unfold collectOperator at h
  cases hl : opLoop rest (opGroup c) 1 with
  | oob => rw [hl] at h; cases h
  | tok o n =>
    rw [hl] at h
    have := opLoop_len _ _ _ _ _ hl
    simp only at h
    split at h
    · simp only [OpRes.tok.injEq] at h; omega
    · simp only [OpRes.tok.injEq] at h; omega

theorem opToken_len (x : Nat) (s : List Nat) (op : Op) (e : List Nat) (h : opToken x s = .ok (.operator op, e)) :
    ∃ len, collectOperator x s = .tok op len ∧ (x :: s).length = len + e.length := by
  unfold opToken at h
  cases hc : collectOperator x s with
  | oob => rw [hc] at h; cases h
  | tok o n =>
    rw [hc] at h
    simp only [Res.ok.injEq, Prod.mk.injEq, TT.operator.injEq] at h
    have := collectOperator_len x s o n hc
    refine ⟨n, by rw [h.1], ?_⟩
    rw [← h.2]; simp only [List.length_cons, List.length_drop]; omega

/-- An operator token is the operator found by the scan of C14, and takes exactly the bytes of its spelling. -/
theorem C52_operator_text (b : List Nat) (op : Op) (e : List Nat) (h : nextToken b = .ok (.operator op, e)) :
    ∃ len, operatorToken b = some (.tok op len) ∧ b.length = len + e.length := by
  have h' : tokenAny b = .ok (.operator op, e) := by
    unfold nextToken at h
    cases hr : tokenAny b with
    | err => rw [hr] at h; cases h
    | ub => rw [hr] at h; cases h
    | ok q =>
      rw [hr] at h
      simp only [checkLen] at h
      split at h
      · cases h
      · rw [← h]
  cases b with
  | nil => simp [tokenAny] at h'
  | cons x s =>
    have no : ∀ {r : Res (List Nat)} {f : List Nat → TT}, (∀ e o, f e ≠ .operator o) → mapRes r f = .ok (.operator op, e) → False := by
      intro r f hf hh
      cases r with
      | err => cases hh
      | ub => cases hh
      | ok a => simp only [mapRes, Res.ok.injEq, Prod.mk.injEq] at hh; exact hf a op hh.1
    have noId : ∀ b e', identToken b e' = .ok (.operator op, e) → False := by
      intro b e' hh
      refine no ?_ hh
      intro e o; split <;> simp
    have noStr : ∀ b e o, stringType b e ≠ .operator o := by
      intro b e o; unfold stringType; split <;> simp
    have hop := type_operator x s
    have hsl := type_slash x s
    simp only [tokenAny] at h'
    cases hc : (prefetch (x :: s)).1 with
    | operator =>
      rw [hc] at h'
      obtain ⟨len, h1, h2⟩ := opToken_len x s op e h'
      refine ⟨len, ?_, h2⟩
      have hb : isOpByte x = true := by simpa [isOpByte] using hop hc
      simp only [operatorToken]
      rw [if_pos hb, h1]
    | slash =>
      have hx := hsl hc
      subst hx
      rw [hc] at h'
      simp only at h'
      have hp : (prefetch (47 :: s)).2 = s := by rw [prefetch_ascii 47 s (by omega) (by omega)]
      rw [hp] at h'
      have hopf : isOpByte 47 = false := by decide
      cases s with
      | nil =>
        rw [if_neg (by simp [prefetch])] at h'
        simp only [Res.ok.injEq, Prod.mk.injEq, TT.operator.injEq] at h'
        refine ⟨1, ?_, by rw [← h'.2]; simp [prefetch]⟩
        rw [← h'.1]; rfl
      | cons d t =>
        split at h'
        · split at h'
          · exact (no (by simp) h').elim
          · rename_i h1 h2
            split at h'
            · exact (no (by simp) h').elim
            · rename_i h3
              obtain ⟨len, k1, k2⟩ := opToken_len 47 (d :: t) op e h'
              refine ⟨len, ?_, k2⟩
              have hd1 : d ≠ 47 := by
                rintro rfl
                apply h2
                rw [prefetch_ascii 47 t (by omega) (by omega)]; rfl
              have hd2 : d ≠ 42 := by rintro rfl; exact h3 rfl
              simp only [operatorToken, hopf]
              rw [if_neg (by simp), if_pos trivial, if_neg (by omega), k1]
        · rename_i h1
          have := (prefetch_spec (d :: t)).2.2.mp (by simpa using h1)
          cases this
    | string => rw [hc] at h'; exact (no (noStr _) h').elim
    | letter =>
      rw [hc] at h'
      simp only at h'
      split at h'
      · split at h'
        · exact (no (by simp) h').elim
        · exact (noId _ _ h').elim
      · exact (noId _ _ h').elim
    | underscore => rw [hc] at h'; exact (noId _ _ h').elim
    | whitespace => rw [hc] at h'; exact (no (by simp) h').elim
    | comment => rw [hc] at h'; exact (no (by simp) h').elim
    | digit =>
      rw [hc] at h'
      simp only at h'
      split at h'
      · split at h'
        · exact (no (by simp) h').elim
        · split at h'
          · exact (no (by simp) h').elim
          · exact (no (by simp) h').elim
      · exact (no (by simp) h').elim
    | eol => rw [hc] at h'; simp at h'
    | separator => rw [hc] at h'; simp at h'
    | eof => rw [hc] at h'; cases h'
    | invalid => rw [hc] at h'; cases h'
    | backslash => rw [hc] at h'; cases h'
    | tab => rw [hc] at h'; cases h'
    | utf8Tail => rw [hc] at h'; cases h'
    | utf8Two => rw [hc] at h'; cases h'
    | utf8Three => rw [hc] at h'; cases h'
    | utf8Four => rw [hc] at h'; cases h'
    | invalidUtf8 => rw [hc] at h'; cases h'

/-! Example: `x+="a\(` then `)b"`. -/
example : nextToken [34, 97, 92, 40, 120, 41, 98, 34] = .ok (.stringOpen, [120, 41, 98, 34]) := by decide +kernel
example : nextCont [41, 98, 34] = .ok (.string, []) := by decide +kernel
example : nextToken [43, 61, 49] = .ok (.operator .setadd, [49]) := by decide +kernel
example : nextToken [47, 42, 42, 47, 33] = .ok (.comment, [33]) := by decide +kernel

end Verif.Props
