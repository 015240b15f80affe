import Verif.Lib.JsonLex
import Verif.Lib.JsonSpec
import Verif.Props.C49
/-
What the tokenizer makes of the parts of a JSON text.
-/
namespace Verif.Json
open Verif.Misc (Plain)
open Verif.Misc.Spec (Literal FloatLit)
open Verif.Lexer Spec

/-- Reading from `b` to `b'` gives the tokens `ts`. -/
def Lexes (b b' : List Nat) (ts : List Tok) : Prop :=
  ∃ k, k + b'.length ≤ b.length ∧ ∀ n, tokenize (n + k) b false = (ts ++ (tokenize n b' false).1, (tokenize n b' false).2)

theorem Lexes.nil (b : List Nat) : Lexes b b [] := ⟨0, by omega, fun n => by simp⟩

theorem Lexes.trans {a b c : List Nat} {s t : List Tok} (h1 : Lexes a b s) (h2 : Lexes b c t) : Lexes a c (s ++ t) := by
  obtain ⟨k, hk, h1⟩ := h1
  obtain ⟨m, hm, h2⟩ := h2
  refine ⟨m + k, by omega, fun n => ?_⟩
  rw [← Nat.add_assoc, h1, h2, List.append_assoc]

theorem lexes_token (t e : List Nat) (tt : TT) (tok : Tok) (hne : t ≠ []) (h : nextToken (t ++ e) = .ok (tt, e))
    (hs : ∀ rest, step tt t false rest = put tok (rest false)) : Lexes (t ++ e) e [tok] := by
  have := List.length_pos_of_ne_nil hne
  refine ⟨1, by rw [List.length_append]; omega, fun n => ?_⟩
  rw [tokenize, h]
  simp only
  rw [between_append, hs]; rfl

theorem lexes_skip (t e : List Nat) (tt : TT) (hne : t ≠ []) (h : nextToken (t ++ e) = .ok (tt, e))
    (hs : ∀ rest, step tt t false rest = rest false) : Lexes (t ++ e) e [] := by
  have := List.length_pos_of_ne_nil hne
  refine ⟨1, by rw [List.length_append]; omega, fun n => ?_⟩
  rw [tokenize, h]
  simp only
  rw [between_append, hs]; rfl

theorem lexes_sep (c : Nat) (hc : isSep c = true) (r : List Nat) : Lexes (c :: r) r [.sep c] := by
  apply lexes_token [c] r (.separator c) (.sep c) (by simp) (nextToken_sep c hc r)
  intro rest
  simp [step, hc]

theorem lexes_word (x : Nat) (w r : List Nat) (hx : x < 128 ∧ lexemType x = .letter ∧ x ≠ 114 ∧ x ≠ 82)
    (hw : ∀ c ∈ w, c < 128 ∧ lexemType c = .letter) (hl : w.length < 0xFFFF) (hr : Stop r) (v : V)
    (hv : ∀ rest, wordTok (x :: w) rest = put (.val v) rest) : Lexes (x :: w ++ r) r [.val v] := by
  obtain ⟨t, ht, h⟩ := nextToken_word x w r hx hw hl hr
  apply lexes_token (x :: w) r t (.val v) (by simp) ht
  intro rest
  rcases h with rfl | ⟨k, rfl⟩ <;> simp [step, hv]

theorem lexes_null (r : List Nat) (hr : Stop r) : Lexes (ascii "null" ++ r) r [.val .void] :=
  lexes_word 110 (ascii "ull") r (by decide) (by decide) (by decide) hr .void (fun _ => rfl)
theorem lexes_true (r : List Nat) (hr : Stop r) : Lexes (ascii "true" ++ r) r [.val (.bool true)] :=
  lexes_word 116 (ascii "rue") r (by decide) (by decide) (by decide) hr _ (fun _ => rfl)
theorem lexes_false (r : List Nat) (hr : Stop r) : Lexes (ascii "false" ++ r) r [.val (.bool false)] :=
  lexes_word 102 (ascii "alse") r (by decide) (by decide) (by decide) hr _ (fun _ => rfl)

/-- A number and its opposite. -/
theorem lexes_number (i f e r : List Nat) (hi : Whole i) (hf : FracText f) (he : ExpText e) (hr : Stop r)
    (hl : (i ++ (f ++ e)).length ≤ 0xFFFF) (n : Misc.Numeric) (hn : Misc.parseNumeric (i ++ (f ++ e)) = .ok n) :
    Lexes (i ++ (f ++ e) ++ r) r [.val (same n)] ∧ Lexes (45 :: (i ++ (f ++ e) ++ r)) r [.val (negate n)] := by
  obtain ⟨h1, h2, h3⟩ := hi
  have ht := nextToken_number i f e r h2 h1 h3 hf he hr hl
  have hassoc : i ++ (f ++ (e ++ r)) = i ++ (f ++ e) ++ r := by simp
  rw [hassoc] at ht
  refine ⟨?_, ?_⟩
  · apply lexes_token _ r .numeric (.val (same n)) (by simp [h1]) ht
    intro rest
    simp [step, numberTok, hn]
  · refine ⟨2, by have := List.length_pos_of_ne_nil h1; simp only [List.length_cons, List.length_append]; omega, fun m => ?_⟩
    cases i with
    | nil => exact absurd rfl h1
    | cons d i =>
      have hd := h2 d (by simp)
      have hm := nextToken_minus d (i ++ (f ++ e) ++ r) (by
        have : ∀ k : Fin 10, isOpByte (48 + k.val) = false := by decide
        have := this ⟨d - 48, by omega⟩
        rwa [show 48 + (d - 48) = d by omega] at this)
      show tokenize (m + 1 + 1) (45 :: d :: (i ++ (f ++ e) ++ r)) false = _
      rw [tokenize, hm]
      simp only [step]
      rw [if_neg (by simp), if_neg (by simp), if_pos trivial]
      have ht' : nextToken (d :: (i ++ (f ++ e) ++ r)) = .ok (.numeric, r) := ht
      rw [tokenize, ht']
      have hb : between (d :: (i ++ (f ++ e) ++ r)) r = d :: i ++ (f ++ e) := between_append (d :: i ++ (f ++ e)) r
      simp only [step, hb]
      rw [if_neg (by simp), if_neg (by simp), numberTok, hn]
      rfl

theorem lexes_string (s r : List Nat) (h : Str s) : Lexes ((34 :: s ++ [34]).flatMap Utf8.utf8 ++ r) r [.val (.str s)] := by
  obtain ⟨h1, h2⟩ := h
  have hq : Utf8.utf8 34 = [34] := by decide
  have hfl : (34 :: s ++ [34]).flatMap Utf8.utf8 = 34 :: (s.flatMap Utf8.utf8 ++ [34]) := by
    simp [hq]
  have hu := utf8_length s
  obtain ⟨k, hk⟩ := newString_utf8 (34 :: s ++ [34]) (by
    intro c hc
    simp only [List.mem_append, List.mem_cons, List.not_mem_nil, or_false] at hc
    rcases hc with (rfl | hc) | rfl
    · omega
    · exact (h1 c hc).1
    · omega) (by simp) (by simp only [List.length_cons, List.length_append, List.length_nil]; omega) (by rw [hfl]; simp only [List.length_cons, List.length_append, List.length_nil]; omega) 8 (fun _ => true)
  have ht := nextToken_string s r h1 (by omega)
  apply lexes_token _ r .string (.val (.str s)) (by rw [hfl]; simp)
  · rw [hfl]; simpa using ht
  · intro rest
    simp only [step]
    rw [if_neg (by simp), if_neg (by simp), stringTok, hk]
    simp

/-- What a run of whitespace is followed by. -/
def Solid (r : List Nat) : Prop := ∀ x, r.head? = some x → x < 128 ∧ x ≠ 9 ∧ x ≠ 10 ∧ x ≠ 11 ∧ x ≠ 12 ∧ x ≠ 13 ∧ x ≠ 32

theorem lexes_tab (r : List Nat) : Lexes (9 :: r) r [] := by
  refine ⟨1, by simp; omega, fun n => ?_⟩
  have hn : nextToken (9 :: r) = .err := by
    rw [nextToken, tokenAny]
    simp only [prefetch_ascii 9 r (by omega) (by omega), show lexemType 9 = .tab by decide, checkLen]
  have hr : recover (9 :: r) = some r := by
    rw [recover]
    simp only [prefetch_ascii 9 r (by omega) (by omega), show lexemType 9 = .tab by decide]
  have hb : between (9 :: r) r = [9] := between_append [9] r
  rw [tokenize, hn]
  simp only
  rw [skipErr, hr]
  simp only [hb]
  rfl

theorem lexes_lf (r : List Nat) : Lexes (10 :: r) r [] := by
  apply lexes_skip [10] r .eol (by simp)
  · rw [List.cons_append, List.nil_append, nextToken, tokenAny]
    simp only [prefetch_ascii 10 r (by omega) (by omega), show lexemType 10 = .eol by decide, checkLen]
    rw [if_neg (by simp only [List.length_cons]; omega)]
  · intro rest; simp [step]

theorem lexes_crlf (r : List Nat) : Lexes (13 :: 10 :: r) r [] := by
  apply lexes_skip [13, 10] r .eol (by simp)
  · rw [List.cons_append, List.cons_append, List.nil_append, nextToken, tokenAny, prefetch_13]
    simp only [List.head?_cons, if_true, List.tail_cons, checkLen]
    rw [if_neg (by simp only [List.length_cons]; omega)]
  · intro rest; simp [step]

theorem lexes_cr (r : List Nat) (h : r.head? ≠ some 10) : Lexes (13 :: r) r [] := by
  apply lexes_skip [13] r .eol (by simp)
  · rw [List.cons_append, List.nil_append, nextToken, tokenAny, prefetch_13]
    simp only [if_neg h, checkLen]
    rw [if_neg (by simp only [List.length_cons]; omega)]
  · intro rest; simp [step]

theorem lexes_spaces (m : Nat) (r : List Nat) (hm : m < 0xFFFF) (hr : (prefetch r).1 ≠ .whitespace) :
    Lexes (List.replicate (m + 1) 32 ++ r) r [] := by
  apply lexes_skip _ r .whitespace (by simp)
  · rw [List.replicate_succ, List.cons_append, nextToken, tokenAny]
    simp only [prefetch_ascii 32 _ (show 32 < 128 by omega) (show 32 ≠ 13 by omega), show lexemType 32 = .whitespace by decide]
    rw [collectWhitespace, skipWhile_run]
    · simp only [mapRes, checkLen]
      rw [if_neg (by simp; omega)]
    · intro c hc
      rw [List.eq_of_mem_replicate hc]
      exact ⟨by omega, by omega, by decide⟩
    · intro x _
      simpa using hr
    · simp; omega
  · intro rest; simp [step]

theorem solid_type (r : List Nat) (h : Solid r) : (prefetch r).1 ≠ .whitespace := by
  cases r with
  | nil => simp [prefetch]
  | cons x s =>
    obtain ⟨h1, h2, h3, h4, h5, h6, h7⟩ := h x rfl
    rw [prefetch_ascii x s h1 h6]
    have : ∀ x : Fin 128, x.val ≠ 11 → x.val ≠ 12 → x.val ≠ 32 → lexemType x.val ≠ .whitespace := by decide
    exact this ⟨x, h1⟩ h4 h5 h7

theorem lexes_ws (r : List Nat) (hr : Solid r) : ∀ (m : Nat) (w : List Nat), w.length = m → Ws w → Lexes (w ++ r) r [] := by
  intro m
  induction m using Nat.strongRecOn with
  | ind m ih =>
    intro w hm hw
    have sub : ∀ w', w'.length < m → (∀ c ∈ w', c ∈ w) → Lexes (w' ++ r) r [] := fun w' h1 h2 =>
      ih _ h1 w' rfl ⟨fun c hc => hw.1 c (h2 c hc), by have := hw.2; omega⟩
    cases w with
    | nil => exact .nil r
    | cons c w =>
      simp only [List.length_cons] at hm
      have htail := sub w (by omega) (fun c hc => by simp [hc])
      rcases hw.1 c (by simp) with rfl | rfl | rfl | rfl
      · -- spaces
        obtain ⟨p, q, hp, hq, hq32⟩ : ∃ p q, w = List.replicate p 32 ++ q ∧ p ≤ w.length ∧ q.head? ≠ some 32 := by
          clear hm htail sub ih hw
          induction w with
          | nil => exact ⟨0, [], rfl, by simp, by simp⟩
          | cons c w ih =>
            by_cases h32 : c = 32
            · obtain ⟨p, q, h1, h2, h3⟩ := ih
              exact ⟨p + 1, q, by rw [h32, h1]; simp [List.replicate_succ], by simp; omega, h3⟩
            · exact ⟨0, c :: w, rfl, by simp, by simpa using h32⟩
        have hl := congrArg List.length hp
        simp only [List.length_append, List.length_replicate] at hl
        have hs := lexes_spaces p (q ++ r) (by have := hw.2; simp at this; omega) (by
          cases q with
          | nil => exact solid_type r hr
          | cons x q =>
            have hx := hw.1 x (by rw [hp]; simp)
            simp only [List.head?_cons, ne_eq, Option.some.injEq] at hq32
            by_cases h13 : x = 13
            · rw [h13, List.cons_append, prefetch_13]; simp
            · rw [List.cons_append, prefetch_ascii x _ (by omega) h13]
              rcases hx with rfl | rfl | rfl | rfl <;> first | omega | (dsimp only; decide))
        have h2 := sub q (by omega) (fun c hc => by rw [hp]; simp [hc])
        have := hs.trans h2
        rw [hp]
        simpa [List.replicate_succ] using this
      · exact (lexes_tab _).trans htail
      · exact (lexes_lf _).trans htail
      · by_cases h10 : (w ++ r).head? = some 10
        · cases w with
          | nil =>
            have := hr 10 h10
            omega
          | cons x w =>
            simp only [List.cons_append, List.head?_cons, Option.some.injEq] at h10
            subst h10
            exact (lexes_crlf _).trans (sub w (by simp at hm; omega) (fun c hc => by simp [hc]))
        · exact (lexes_cr _ h10).trans htail

end Verif.Json
