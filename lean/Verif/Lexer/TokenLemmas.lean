import Verif.Lexer.Token
import Verif.Utf8.Enc
namespace Verif.Lexer
open Verif.Utf8 (escMap)

theorem lexemType_ascii (b : Nat) (h : b < 128) : lexemType b ≠ .utf8Tail ∧ (lexemType b).multi = 0 ∧
    lexemType b ≠ .eof ∧ lexemType b ≠ .invalidUtf8 ∧ (lexemType b = .eol ↔ b = 10 ∨ b = 13) ∧
    (lexemType b = .string ↔ b = 34) ∧ (lexemType b = .backslash ↔ b = 92) := by
  have : ∀ b : Fin 128, lexemType b.val ≠ .utf8Tail ∧ (lexemType b.val).multi = 0 ∧
    lexemType b.val ≠ .eof ∧ lexemType b.val ≠ .invalidUtf8 ∧ (lexemType b.val = .eol ↔ b.val = 10 ∨ b.val = 13) ∧
    (lexemType b.val = .string ↔ b.val = 34) ∧ (lexemType b.val = .backslash ↔ b.val = 92) := by decide +kernel
  exact this ⟨b, h⟩

theorem prefetch_ascii (b : Nat) (s : List Nat) (h : b < 128) (h13 : b ≠ 13) : prefetch (b :: s) = (lexemType b, s) := by
  obtain ⟨h1, h2, _⟩ := lexemType_ascii b h
  simp only [prefetch]
  rw [if_neg h1, if_neg (by simp [h2]), if_neg (by intro hh; exact h13 hh.2.1)]

theorem prefetch_13 (s : List Nat) :
    prefetch (13 :: s) = (.eol, if s.head? = some 10 then s.tail else s) := by
  have h1 : lexemType 13 = .eol := by decide
  simp only [prefetch, h1]
  rw [if_neg (by decide), if_neg (by decide)]
  by_cases h : s.head? = some 10
  · rw [if_pos ⟨trivial, trivial, h⟩, if_pos h]
  · rw [if_neg (fun hh => h hh.2.2), if_neg h]

theorem tails_suffix (n : Nat) : ∀ code s, (tails n code s).2.2 <:+ s := by
  induction n with
  | zero => intro code s; exact List.suffix_refl _
  | succ n ih =>
    intro code s
    cases s with
    | nil => exact List.suffix_refl _
    | cons c s =>
      rw [tails]
      split
      · exact List.suffix_refl _
      · exact (ih _ s).trans (List.suffix_cons c s)

theorem lexemType_big (c : Nat) (h : 256 ≤ c) : lexemType c = .invalid := by
  have hop : isOpByte c = false := by
    unfold isOpByte opBytes
    simp only [List.contains_cons, List.contains_nil, Bool.or_false, Bool.or_eq_false_iff, beq_eq_false_iff_ne]
    omega
  unfold lexemType
  rw [if_neg (by omega), if_neg (by omega), if_neg (by omega), hop, if_neg (by simp)]
  repeat rw [if_neg (by omega)]

theorem lexemType_ne_eof (c : Nat) : lexemType c ≠ .eof ∧ lexemType c ≠ .invalidUtf8 := by
  by_cases h : c < 256
  · have : ∀ c : Fin 256, lexemType c.val ≠ .eof ∧ lexemType c.val ≠ .invalidUtf8 := by decide +kernel
    exact this ⟨c, h⟩
  · rw [lexemType_big c (by omega)]; decide

theorem lexemType_class (x : Nat) : (lexemType x = .operator → x ∈ opBytes) ∧ (lexemType x = .slash → x = 47) ∧ (lexemType x = .string → x = 34) := by
  by_cases h : x < 256
  · have : ∀ x : Fin 256, (lexemType x.val = .operator → x.val ∈ opBytes) ∧ (lexemType x.val = .slash → x.val = 47) ∧ (lexemType x.val = .string → x.val = 34) := by
      decide +kernel
    exact this ⟨x, h⟩
  · rw [lexemType_big x (by omega)]; exact ⟨nofun, nofun, nofun⟩

theorem prefetch_type (x : Nat) (s : List Nat) : (prefetch (x :: s)).1 = lexemType x ∨
    (prefetch (x :: s)).1 = .invalidUtf8 ∨ (prefetch (x :: s)).1 = .whitespace ∨ (prefetch (x :: s)).1 = .eol := by
  simp only [prefetch]
  split
  · simp
  · split
    · split
      · simp
      · generalize tails ((lexemType x).multi - 1) (((x <<< (lexemType x).multi) &&& 0xFF) >>> (lexemType x).multi) s = t
        obtain ⟨good, code, e⟩ := t
        cases spaceCode code <;> cases good <;> simp
    · split <;> simp

theorem prefetch_string (b : List Nat) (h : (prefetch b).1 = .string) : ∃ s, b = 34 :: s ∧ (prefetch b).2 = s := by
  cases b with
  | nil => cases h
  | cons x s =>
    have hx : x = 34 := by
      rcases prefetch_type x s with h1 | h1 | h1 | h1 <;> rw [h1] at h
      · exact (lexemType_class x).2.2 h
      all_goals cases h
    subst hx
    exact ⟨s, rfl, by rw [prefetch_ascii 34 s (by omega) (by omega)]⟩

/-- Every prefetch moves on to a suffix; it consumes something unless at the end of the source or at broken UTF-8. -/
theorem prefetch_spec (b : List Nat) : (prefetch b).2 <:+ b ∧
    (b ≠ [] → (prefetch b).1 ≠ .invalidUtf8 → (prefetch b).2.length < b.length) ∧
    ((prefetch b).1 = .eof ↔ b = []) := by
  cases b with
  | nil => exact ⟨List.suffix_refl _, by simp, by simp [prefetch]⟩
  | cons c s =>
    have hs := List.suffix_cons c s
    have hne := lexemType_ne_eof c
    simp only [prefetch]
    split
    · exact ⟨List.suffix_refl _, by simp, by simp⟩
    · split
      · split
        · exact ⟨List.nil_suffix, by simp, by simp⟩
        · have ht := tails_suffix ((lexemType c).multi - 1) (((c <<< (lexemType c).multi) &&& 0xFF) >>> (lexemType c).multi) s
          generalize tails ((lexemType c).multi - 1) (((c <<< (lexemType c).multi) &&& 0xFF) >>> (lexemType c).multi) s = t at ht
          obtain ⟨good, code, e⟩ := t
          simp only at ht ⊢
          refine ⟨ht.trans hs, fun _ _ => by have := ht.length_le; simp; omega, ?_⟩
          cases spaceCode code <;> cases good <;> simp [hne.1]
      · split
        · refine ⟨(List.tail_suffix s).trans hs, fun _ _ => by simp; omega, by simp⟩
        · exact ⟨hs, by simp, by simp [hne.1]⟩

theorem skipWhile_spec (p : LT → Nat → Bool) (hp : ∀ x, p .invalidUtf8 x = false) : ∀ fuel b, b.length < fuel →
    ∃ c e, skipWhile p fuel b = .ok (c, e) ∧ e <:+ b ∧ c = (prefetch e).1 := by
  intro fuel
  induction fuel with
  | zero => intro b h; omega
  | succ fuel ih =>
    intro b h
    obtain ⟨h1, h2, h3⟩ := prefetch_spec b
    rw [skipWhile]
    cases b with
    | nil => exact ⟨_, _, rfl, List.suffix_refl _, rfl⟩
    | cons x s =>
      simp only
      by_cases hpx : p (prefetch (x :: s)).1 x = true
      · rw [if_pos hpx]
        have hlt := h2 (by simp) (by intro hh; rw [hh, hp] at hpx; cases hpx)
        obtain ⟨c, e, he, hs, hc⟩ := ih (prefetch (x :: s)).2 (by omega)
        exact ⟨c, e, he, hs.trans h1, hc⟩
      · rw [if_neg hpx]
        exact ⟨_, _, rfl, List.suffix_refl _, rfl⟩

theorem collectWhitespace_spec (b : List Nat) : ∃ e, collectWhitespace b = .ok e ∧ e <:+ b := by
  obtain ⟨c, e, he, hs, _⟩ := skipWhile_spec (fun c _ => c == .whitespace) (by intro _; rfl) (b.length + 1) b (Nat.lt_succ_self _)
  exact ⟨e, by rw [collectWhitespace, he], hs⟩

theorem collectUntilEol_spec (b : List Nat) : ∃ e, collectUntilEol b = .ok e ∧ e <:+ b := by
  obtain ⟨c, e, he, hs, _⟩ := skipWhile_spec (fun c _ => !c.eolBit && c != .invalidUtf8) (by intro _; rfl) (b.length + 1) b (Nat.lt_succ_self _)
  exact ⟨e, by rw [collectUntilEol, he], hs⟩

theorem collectIdentifier_spec (b : List Nat) : ∃ e, collectIdentifier b = .ok e ∧ e <:+ b := by
  obtain ⟨c, e, he, hs, _⟩ := skipWhile_spec (fun c _ => c.alnum) (by intro _; rfl) (b.length + 1) b (Nat.lt_succ_self _)
  exact ⟨e, by rw [collectIdentifier, he], hs⟩

theorem blockLoop_spec : ∀ fuel c begin e, e.length < fuel → (c = .eof ∨ e.length + 1 < fuel ∨ e ≠ [] ∨ True) →
    ∃ r, blockLoop (fuel + 1) c begin e = .ok r ∧ r <:+ e := by
  intro fuel
  induction fuel with
  | zero => intro c begin e h; omega
  | succ fuel ih =>
    intro c begin e h _
    obtain ⟨h1, h2, h3⟩ := prefetch_spec e
    rw [blockLoop]
    split
    · exact ⟨e, rfl, List.suffix_refl _⟩
    · simp only
      split
      · exact ⟨e, rfl, List.suffix_refl _⟩
      · rename_i hnv
        split
        · exact ⟨_, rfl, h1⟩
        · by_cases he : e = []
          · subst he
            refine ⟨[], ?_, List.suffix_refl _⟩
            rw [blockLoop, if_pos (h3.mpr rfl)]; rfl
          · have hlt := h2 he hnv
            obtain ⟨r, hr, hs⟩ := ih (prefetch e).1 e (prefetch e).2 (by omega) (by simp)
            exact ⟨r, hr, hs.trans h1⟩

theorem collectBlockComment_spec (b : List Nat) : ∃ e, collectBlockComment b = .ok e ∧ e <:+ b := by
  obtain ⟨h1, h2, h3⟩ := prefetch_spec b
  obtain ⟨r, hr, hs⟩ := blockLoop_spec (b.length + 1) (prefetch b).1 b (prefetch b).2
    (by have := h1.length_le; omega) (by simp)
  exact ⟨r, hr, hs.trans h1⟩

/-- The outcome of a collector: an error, or a position later in the source. -/
def Good (b : List Nat) (r : Res (List Nat)) : Prop := r = .err ∨ ∃ e, r = .ok e ∧ e <:+ b

theorem hexBraces_spec : ∀ fuel count b, b.length < fuel →
    hexBraces fuel count b = .err ∨ ∃ n e, hexBraces fuel count b = .ok (n, e) ∧ e <:+ b := by
  intro fuel
  induction fuel with
  | zero => intro count b h; omega
  | succ fuel ih =>
    intro count b h
    obtain ⟨h1, h2, h3⟩ := prefetch_spec b
    rw [hexBraces]
    cases b with
    | nil => left; rfl
    | cons x s =>
      simp only
      by_cases hx : x = 125
      · rw [if_pos hx]; right; exact ⟨_, _, rfl, h1⟩
      · rw [if_neg hx]
        cases hh : charIsHex x with
        | false => left; simp
        | true =>
          simp only [Bool.not_true, Bool.false_eq_true, if_false]
          have hlt : x < 128 ∧ x ≠ 13 := by
            unfold charIsHex at hh
            simp only [Bool.or_eq_true, Bool.and_eq_true, decide_eq_true_eq] at hh
            omega
          rw [prefetch_ascii x s hlt.1 hlt.2]
          rcases ih (count + 1) s (by simp at h; omega) with he | ⟨n, e, he, hs⟩
          · left; exact he
          · right; exact ⟨n, e, he, hs.trans (List.suffix_cons x s)⟩

theorem collectEscape_spec (b : List Nat) :
    collectEscape b = .err ∨ ∃ e f, collectEscape b = .ok (e, f) ∧ e <:+ b := by
  obtain ⟨h1, h2, h3⟩ := prefetch_spec b
  rw [collectEscape]
  cases b with
  | nil => left; rfl
  | cons x s =>
    simp only
    generalize (prefetch (x :: s)).2 = e at h1 h2
    cases hx : escMap x with
    | hex =>
      simp only
      obtain ⟨g1, g2, g3⟩ := prefetch_spec e
      cases e with
      | nil => left; rfl
      | cons y t =>
        simp only
        by_cases hy : y = 123
        · rw [if_pos hy]
          rcases hexBraces_spec ((prefetch (y :: t)).2.length + 1) 0 (prefetch (y :: t)).2 (Nat.lt_succ_self _) with he | ⟨n, e, he, hs⟩
          · rw [he]; left; rfl
          · rw [he]
            simp only
            split
            · left; rfl
            · split
              · left; rfl
              · right; exact ⟨_, _, rfl, (hs.trans g1).trans h1⟩
        · rw [if_neg hy]
          split
          · generalize (prefetch (y :: t)).2 = u at g1
            obtain ⟨k1, k2, k3⟩ := prefetch_spec u
            cases u with
            | nil => left; rfl
            | cons z v =>
              simp only
              split
              · left; rfl
              · right; exact ⟨_, _, rfl, (k1.trans g1).trans h1⟩
          · left; rfl
    | interpolate => right; exact ⟨_, _, rfl, h1⟩
    | invalid => right; exact ⟨_, _, rfl, h1⟩
    | zero => right; exact ⟨_, _, rfl, h1⟩
    | char c => right; exact ⟨_, _, rfl, h1⟩

theorem collectString_spec : ∀ fuel b, b.length < fuel → Good b (collectString fuel b) := by
  intro fuel
  induction fuel with
  | zero => intro b h; omega
  | succ fuel ih =>
    intro b h
    obtain ⟨h1, h2, h3⟩ := prefetch_spec b
    rw [collectString]
    simp only
    split
    · left; rfl
    · rename_i hneof
      split
      · left; rfl
      · rename_i hnv
        have hb : b ≠ [] := fun hh => hneof (h3.mpr hh)
        have hlt := h2 hb hnv
        split
        · right; exact ⟨_, rfl, h1⟩
        · split
          · rcases collectEscape_spec (prefetch b).2 with he | ⟨e, f, he, hs⟩
            · rw [he]; left; rfl
            · rw [he]
              simp only
              cases f with
              | true => right; exact ⟨_, rfl, hs.trans h1⟩
              | false =>
                simp only [Bool.false_eq_true, if_false]
                rcases ih e (by have := hs.length_le; omega) with hg | ⟨r, hr, hrs⟩
                · left; exact hg
                · right; exact ⟨r, hr, (hrs.trans hs).trans h1⟩
          · split
            · left; rfl
            · rcases ih (prefetch b).2 (by omega) with hg | ⟨r, hr, hrs⟩
              · left; exact hg
              · right; exact ⟨r, hr, hrs.trans h1⟩

theorem collectRaw_spec : ∀ fuel b, b.length < fuel → Good b (collectRaw fuel b) := by
  intro fuel
  induction fuel with
  | zero => intro b h; omega
  | succ fuel ih =>
    intro b h
    obtain ⟨h1, h2, h3⟩ := prefetch_spec b
    rw [collectRaw]
    simp only
    split
    · left; rfl
    · rename_i hneof
      split
      · left; rfl
      · rename_i hnv
        have hb : b ≠ [] := fun hh => hneof (h3.mpr hh)
        have hlt := h2 hb hnv
        split
        · right; exact ⟨_, rfl, h1⟩
        · split
          · obtain ⟨g1, _, _⟩ := prefetch_spec (prefetch b).2
            split
            · left; rfl
            · rcases ih (prefetch (prefetch b).2).2 (by have := g1.length_le; omega) with hg | ⟨r, hr, hrs⟩
              · left; exact hg
              · right; exact ⟨r, hr, (hrs.trans g1).trans h1⟩
          · rcases ih (prefetch b).2 (by omega) with hg | ⟨r, hr, hrs⟩
            · left; exact hg
            · right; exact ⟨r, hr, hrs.trans h1⟩

theorem digits_spec (b : List Nat) : ∃ c e, skipWhile (fun c _ => digitOrUnderscore c) (b.length + 1) b = .ok (c, e) ∧ e <:+ b := by
  obtain ⟨c, e, he, hs, _⟩ := skipWhile_spec (fun c _ => digitOrUnderscore c) (by intro _; rfl) (b.length + 1) b (Nat.lt_succ_self _)
  exact ⟨c, e, he, hs⟩

theorem collectDecimal_spec (first : Nat) (b : List Nat) : Good b (collectDecimal first b) := by
  have dig := digits_spec
  have pre := fun b => (prefetch_spec b).1
  rw [collectDecimal, decimalScan]
  simp only
  -- integer part
  have s1 : ∃ c e, (if first ≠ 48 then skipWhile (fun c _ => digitOrUnderscore c) (b.length + 1) b
      else .ok ((prefetch b).1, b)) = Res.ok (c, e) ∧ e <:+ b := by
    split
    · exact dig b
    · exact ⟨_, _, rfl, List.suffix_refl _⟩
  obtain ⟨c, e, he, hs⟩ := s1
  rw [he]
  simp only
  -- fraction
  have s2 : ∃ c' e', (if c = LT.operator ∧ at? e = some 46 then
      skipWhile (fun c _ => digitOrUnderscore c) ((prefetch e).2.length + 1) (prefetch e).2 else .ok (c, e)) = Res.ok (c', e') ∧ e' <:+ b := by
    split
    · obtain ⟨c', e', h1, h2⟩ := dig (prefetch e).2
      exact ⟨c', e', h1, (h2.trans (pre e)).trans hs⟩
    · exact ⟨_, _, rfl, hs⟩
  obtain ⟨c2, e2, he2, hs2⟩ := s2
  rw [he2]
  simp only
  -- exponent
  generalize hx : (if c2 = LT.letter ∧ (at? e2 = some 101 ∨ at? e2 = some 69 ∨ at? e2 = some 112 ∨ at? e2 = some 80) then _
      else Res.ok (c2, e2)) = x
  have s3 : ∃ c' e', x = Res.ok (c', e') ∧ e' <:+ b := by
    rw [← hx]
    split
    · generalize hb3 : (if (prefetch (prefetch e2).2).1 = LT.operator ∧ (at? (prefetch e2).2 = some 43 ∨ at? (prefetch e2).2 = some 45) then (prefetch (prefetch e2).2).2 else (prefetch e2).2) = b3
      have h3 : b3 <:+ b := by
        rw [← hb3]
        split
        · exact ((pre _).trans (pre _)).trans hs2
        · exact (pre _).trans hs2
      split
      · split
        · obtain ⟨c', e', h1, h2⟩ := dig (prefetch b3).2
          exact ⟨c', e', h1, (h2.trans (pre b3)).trans h3⟩
        · exact ⟨_, _, rfl, (pre b3).trans h3⟩
      · exact ⟨_, _, rfl, h3⟩
    · exact ⟨_, _, rfl, hs2⟩
  obtain ⟨c3, e3, he3, hs3⟩ := s3
  rw [he3]
  simp only
  split
  · left; rfl
  · right; exact ⟨_, rfl, hs3⟩

theorem collectDigits_spec (p : Nat → Bool) (hp : ∀ x, p x = true → x < 128 ∧ x ≠ 13) (b : List Nat) :
    Good b (collectDigits p b) := by
  rw [collectDigits.eq_def]
  cases b with
  | nil => left; rfl
  | cons x s =>
    simp only
    split
    · left; rfl
    · rename_i hx
      have hx' : p x = true := by cases h : p x <;> simp_all
      obtain ⟨h1, h2⟩ := hp x hx'
      rw [prefetch_ascii x s h1 h2]
      simp only
      have key : ∀ fuel b, b.length < fuel → ∃ c e, skipWhile (fun _ x => p x) fuel b = .ok (c, e) ∧ e <:+ b := by
        intro fuel
        induction fuel with
        | zero => intro b h; omega
        | succ fuel ih =>
          intro b h
          rw [skipWhile]
          cases b with
          | nil => exact ⟨_, _, rfl, List.suffix_refl _⟩
          | cons y t =>
            simp only
            by_cases hy : p y = true
            · obtain ⟨k1, k2⟩ := hp y hy
              rw [if_pos hy, prefetch_ascii y t k1 k2]
              obtain ⟨c, e, he, hs⟩ := ih t (by simp at h; omega)
              exact ⟨c, e, he, hs.trans (List.suffix_cons y t)⟩
            · rw [if_neg hy]; exact ⟨_, _, rfl, List.suffix_refl _⟩
      obtain ⟨c, e, he, hs⟩ := key (s.length + 1) s (Nat.lt_succ_self _)
      rw [he]
      right; exact ⟨_, rfl, hs.trans (List.suffix_cons x s)⟩

end Verif.Lexer
