import Verif.Lib.Json
import Verif.Lexer.TokenLemmas
import Verif.Props.C05
import Verif.Misc.PrintFloatLemmas
/-
What the lexer makes of the parts of a JSON text.
-/
namespace Verif.Json
open Verif.Misc (Plain)
open Verif.Lexer

/-- What may follow a number or a word. -/
def Stop (r : List Nat) : Prop := ∀ x, r.head? = some x → x ∈ [9, 10, 13, 32, 44, 58, 93, 125]

theorem between_append (t e : List Nat) : between (t ++ e) e = t := by
  unfold between
  rw [List.length_append, Nat.add_sub_cancel]
  exact List.take_left

theorem skipWhile_run (p : LT → Nat → Bool) (l r : List Nat) (hl : ∀ c ∈ l, c < 128 ∧ c ≠ 13 ∧ p (lexemType c) c = true)
    (hr : ∀ x, r.head? = some x → p (prefetch r).1 x = false) : ∀ fuel, l.length < fuel →
    skipWhile p fuel (l ++ r) = .ok ((prefetch r).1, r) := by
  induction l with
  | nil =>
    intro fuel hf
    obtain ⟨f, rfl⟩ : ∃ k, fuel = k + 1 := ⟨fuel - 1, by omega⟩
    rw [List.nil_append, skipWhile]
    cases r with
    | nil => rfl
    | cons x s =>
      simp only
      rw [hr x rfl]; rfl
  | cons c cs ih =>
    intro fuel hf
    obtain ⟨f, rfl⟩ : ∃ k, fuel = k + 1 := ⟨fuel - 1, by omega⟩
    obtain ⟨h1, h2, h3⟩ := hl c (by simp)
    rw [List.cons_append, skipWhile, prefetch_ascii c _ h1 h2]
    simp only
    rw [if_pos h3]
    exact ih (fun x hx => hl x (by simp [hx])) f (by simp at hf; omega)

/-- The type of the character at which a number or a word stops. -/
theorem stop_type (r : List Nat) (h : Stop r) : (prefetch r).1 ∈ [LT.eof, .tab, .eol, .whitespace, .separator] ∧
    ∀ x, at? r = some x → x ∈ [9, 10, 13, 32, 44, 58, 93, 125] := by
  refine ⟨?_, h⟩
  cases r with
  | nil => simp [prefetch]
  | cons x s =>
    have hx := h x rfl
    by_cases h13 : x = 13
    · subst h13; rw [prefetch_13]; simp
    · rw [prefetch_ascii x s (by simp at hx; omega) h13]
      simp only [List.mem_cons, List.not_mem_nil, or_false] at hx
      rcases hx with rfl | rfl | rfl | rfl | rfl | rfl | rfl | rfl <;> (dsimp only; decide)

theorem plain_type (c : Nat) (h : 48 ≤ c ∧ c ≤ 57) : c < 128 ∧ c ≠ 13 ∧ lexemType c = .digit := by
  refine ⟨by omega, by omega, ?_⟩
  have : ∀ k : Fin 10, lexemType (48 + k.val) = .digit := by decide
  have := this ⟨c - 48, by omega⟩
  rwa [show 48 + (c - 48) = c by omega] at this

/-- Digits, up to something which is neither a digit nor an underscore. -/
theorem digits_run (l r : List Nat) (hl : Plain l) (hr : digitOrUnderscore (prefetch r).1 = false) (fuel : Nat) (hf : l.length < fuel) :
    skipWhile (fun c _ => digitOrUnderscore c) fuel (l ++ r) = .ok ((prefetch r).1, r) := by
  apply skipWhile_run _ _ _ _ (fun _ _ => hr) _ hf
  intro c hc
  obtain ⟨h1, h2, h3⟩ := plain_type c (hl c hc)
  exact ⟨h1, h2, by rw [h3]; rfl⟩

theorem stop_digit (r : List Nat) (h : Stop r) : digitOrUnderscore (prefetch r).1 = false := by
  have := (stop_type r h).1
  generalize (prefetch r).1 = c at *
  simp only [List.mem_cons, List.not_mem_nil, or_false] at this
  rcases this with rfl | rfl | rfl | rfl | rfl <;> rfl

/-- Exponent: the letter, the sign and digits. -/
def ExpText (t : List Nat) : Prop :=
  t = [] ∨ ∃ c sg ds, t = c :: (sg ++ ds) ∧ (c = 101 ∨ c = 69) ∧ (sg = [] ∨ sg = [43] ∨ sg = [45]) ∧ ds ≠ [] ∧ Plain ds ∧ ∀ t, ds = 48 :: t → t = []

def FracText (t : List Nat) : Prop := t = [] ∨ ∃ f, t = 46 :: f ∧ Plain f

theorem exp_head (t r : List Nat) (ht : ExpText t) (hr : Stop r) :
    (t = [] ∧ digitOrUnderscore (prefetch (t ++ r)).1 = false ∧ (prefetch (t ++ r)).1 ≠ .operator ∧ (prefetch (t ++ r)).1 ≠ .letter) ∨
    (t ≠ [] ∧ (prefetch (t ++ r)).1 = .letter ∧ (prefetch (t ++ r)).2 = t.tail ++ r ∧ (at? (t ++ r) = some 101 ∨ at? (t ++ r) = some 69)) := by
  rcases ht with rfl | ⟨c, sg, ds, rfl, hc, _⟩
  · left
    refine ⟨rfl, stop_digit r hr, ?_, ?_⟩ <;>
    · have := (stop_type r hr).1
      rw [List.nil_append]
      intro h
      rw [h] at this
      simp at this
  · right
    have hp : prefetch (c :: (sg ++ ds) ++ r) = (.letter, sg ++ ds ++ r) := by
      rw [List.cons_append, prefetch_ascii c _ (by omega) (by omega)]
      rcases hc with rfl | rfl <;> rfl
    rw [hp]
    refine ⟨by simp, rfl, rfl, ?_⟩
    rcases hc with rfl | rfl <;> simp [at?]

theorem sign_skip (sg : List Nat) (d : Nat) (s : List Nat) (hsg : sg = [] ∨ sg = [43] ∨ sg = [45]) (d1 : d < 128) (d2 : d ≠ 13)
    (d3 : lexemType d = .digit) (b : List Nat) (hb : b = sg ++ d :: s) :
    (if (prefetch b).1 = LT.operator ∧ (at? b = some 43 ∨ at? b = some 45) then (prefetch b).2 else b) = d :: s := by
  subst hb
  rcases hsg with rfl | rfl | rfl
  · rw [List.nil_append, prefetch_ascii d _ d1 d2, if_neg (by rw [d3]; simp)]
  · rw [List.cons_append, prefetch_ascii 43 _ (by omega) (by omega), if_pos ⟨rfl, by simp [at?]⟩]; rfl
  · rw [List.cons_append, prefetch_ascii 45 _ (by omega) (by omega), if_pos ⟨rfl, by simp [at?]⟩]; rfl

/-- The loops of `collect_decimal` read a number of JSON and stop behind it. -/
theorem decimalScan_number (x : Nat) (i f e r : List Nat) (hi : Plain i) (h0 : x = 48 → i = []) (hf : FracText f)
    (he : ExpText e) (hr : Stop r) : decimalScan x (i ++ (f ++ (e ++ r))) = .ok ((prefetch r).1, r) := by
  have hst := (stop_type r hr).1
  -- the part after the integer does not start with a digit
  have hfe : digitOrUnderscore (prefetch (f ++ (e ++ r))).1 = false := by
    rcases hf with rfl | ⟨f, rfl, _⟩
    · rw [List.nil_append]
      rcases exp_head e r he hr with ⟨_, h, _⟩ | ⟨_, h, _⟩
      · exact h
      · rw [h]; rfl
    · rw [List.cons_append, prefetch_ascii 46 _ (by omega) (by omega)]; rfl
  have her : digitOrUnderscore (prefetch (e ++ r)).1 = false := by
    rcases exp_head e r he hr with ⟨_, h, _⟩ | ⟨_, h, _⟩
    · exact h
    · rw [h]; rfl
  rw [decimalScan]
  simp only
  have s1 : (if x ≠ 48 then skipWhile (fun c _ => digitOrUnderscore c) ((i ++ (f ++ (e ++ r))).length + 1) (i ++ (f ++ (e ++ r)))
      else Lexer.Res.ok ((prefetch (i ++ (f ++ (e ++ r)))).1, i ++ (f ++ (e ++ r)))) = .ok ((prefetch (f ++ (e ++ r))).1, f ++ (e ++ r)) := by
    by_cases hx0 : x = 48
    · rw [if_neg (by simpa using hx0), h0 hx0]; rfl
    · rw [if_pos hx0, digits_run i _ hi hfe _ (by simp; omega)]
  rw [s1]
  simp only
  have s2 : (if (prefetch (f ++ (e ++ r))).1 = LT.operator ∧ at? (f ++ (e ++ r)) = some 46 then
      skipWhile (fun c _ => digitOrUnderscore c) ((prefetch (f ++ (e ++ r))).2.length + 1) (prefetch (f ++ (e ++ r))).2
      else Lexer.Res.ok ((prefetch (f ++ (e ++ r))).1, f ++ (e ++ r))) = .ok ((prefetch (e ++ r)).1, e ++ r) := by
    rcases hf with rfl | ⟨f, rfl, hf⟩
    · rw [List.nil_append, if_neg]
      rintro ⟨h, _⟩
      rcases exp_head e r he hr with ⟨_, _, h', _⟩ | ⟨_, h', _⟩
      · exact h' h
      · rw [h'] at h; cases h
    · rw [List.cons_append, prefetch_ascii 46 _ (by omega) (by omega), if_pos ⟨rfl, rfl⟩]
      exact digits_run f _ hf her _ (by simp; omega)
  rw [s2]
  simp only
  rcases exp_head e r he hr with ⟨rfl, _, _, h⟩ | ⟨hne, h1, h2, h3⟩
  · rw [if_neg (fun hh => h hh.1)]; rfl
  · rw [if_pos ⟨h1, by rcases h3 with h | h <;> simp [h]⟩, h2]
    rcases he with rfl | ⟨c, sg, ds, rfl, _, hsg, hds, hpl, hz⟩
    · exact absurd rfl hne
    · cases ds with
      | nil => exact absurd rfl hds
      | cons d ds =>
        obtain ⟨d1, d2, d3⟩ := plain_type d (hpl d (by simp))
        suffices hx : ∀ b3, b3 = d :: (ds ++ r) → (if digitOrUnderscore (prefetch b3).1 = true then
            if at? b3 ≠ some 48 then skipWhile (fun c _ => digitOrUnderscore c) ((prefetch b3).2.length + 1) (prefetch b3).2
            else Lexer.Res.ok ((prefetch (prefetch b3).2).1, (prefetch b3).2) else Lexer.Res.ok (LT.digit, b3)) = .ok ((prefetch r).1, r) by
          apply hx
          exact sign_skip sg d (ds ++ r) hsg d1 d2 d3 _ (by simp)
        rintro b3 rfl
        rw [prefetch_ascii d _ d1 d2, if_pos (by rw [d3]; rfl)]
        by_cases hd : d = 48
        · rw [if_neg (by simp [at?, hd])]
          have := hz ds (by rw [hd])
          rw [this]; rfl
        · rw [if_pos (by simpa [at?] using hd)]
          exact digits_run ds r (fun c hc => hpl c (by simp [hc])) (stop_digit r hr) _ (by simp; omega)

theorem collectDecimal_number (x : Nat) (i f e r : List Nat) (hi : Plain i) (h0 : x = 48 → i = []) (hf : FracText f)
    (he : ExpText e) (hr : Stop r) : collectDecimal x (i ++ (f ++ (e ++ r))) = .ok r := by
  rw [collectDecimal, decimalScan_number x i f e r hi h0 hf he hr]
  have := (stop_type r hr).1
  generalize (prefetch r).1 = c at *
  simp only [List.mem_cons, List.not_mem_nil, or_false] at this
  rcases this with rfl | rfl | rfl | rfl | rfl <;> rfl

/-- A number of JSON is one token. -/
theorem nextToken_number (i f e r : List Nat) (hi : Plain i) (hne : i ≠ []) (h0 : ∀ t, i = 48 :: t → t = []) (hf : FracText f) (he : ExpText e)
    (hr : Stop r) (hl : (i ++ (f ++ e)).length ≤ 0xFFFF) : nextToken (i ++ (f ++ (e ++ r))) = .ok (.numeric, r) := by
  cases i with
  | nil => exact absurd rfl hne
  | cons x i =>
    have hx := hi x (by simp)
    obtain ⟨d1, d2, d3⟩ := plain_type x hx
    have hi' : Plain i := fun c hc => hi c (by simp [hc])
    have hcd := collectDecimal_number x i f e r hi' (fun h => h0 i (by rw [h])) hf he hr
    -- after a zero comes no letter but the one of the exponent
    have hhead : x = 48 → ∀ c, at? (i ++ (f ++ (e ++ r))) = some c → c ≠ 120 ∧ c ≠ 88 ∧ c ≠ 98 ∧ c ≠ 66 := by
      intro h48 c hc
      rw [h0 i (by rw [h48]), List.nil_append] at hc
      rcases hf with rfl | ⟨f, rfl, _⟩
      · rcases he with rfl | ⟨c', sg, ds, rfl, hc', _⟩
        · have := hr c hc
          simp at this
          omega
        · simp [at?] at hc; omega
      · simp [at?] at hc; omega
    have htok : tokenAny (x :: i ++ (f ++ (e ++ r))) = .ok (.numeric, r) := by
      rw [List.cons_append, tokenAny]
      simp only [prefetch_ascii x _ d1 d2, d3]
      by_cases h48 : x = 48
      · rw [if_pos h48, if_neg, if_neg, hcd]
        · rfl
        · rintro ⟨_, h | h⟩
          · exact absurd rfl (hhead h48 _ h).2.2.1
          · exact absurd rfl (hhead h48 _ h).2.2.2
        · rintro ⟨_, h | h⟩
          · exact absurd rfl (hhead h48 _ h).1
          · exact absurd rfl (hhead h48 _ h).2.1
      · rw [if_neg h48, hcd]; rfl
    rw [nextToken, htok]
    simp only [checkLen]
    rw [if_neg]
    simp only [List.length_append, List.length_cons] at hl ⊢
    omega

/-! ### Separators, words and the minus sign -/

theorem nextToken_sep (c : Nat) (hc : isSep c = true) (r : List Nat) : nextToken (c :: r) = .ok (.separator c, r) := by
  simp only [isSep, List.contains_cons, List.contains_nil, Bool.or_false, Bool.or_eq_true, beq_iff_eq] at hc
  have ht : lexemType c = .separator := by rcases hc with rfl | rfl | rfl | rfl | rfl | rfl <;> decide
  rw [nextToken, tokenAny]
  simp only [prefetch_ascii c r (by omega) (by omega), ht, checkLen]
  rw [if_neg (by simp only [List.length_cons]; omega)]

theorem nextToken_minus (d : Nat) (s : List Nat) (hd : isOpByte d = false) : nextToken (45 :: d :: s) = .ok (.operator .sub, d :: s) := by
  have ht : lexemType 45 = .operator := by decide
  have ho : opToken 45 (d :: s) = .ok (.operator .sub, d :: s) := by
    have hop : opLoop (d :: s) (opGroup 45) 1 = .tok .sub 1 := by
      rw [opLoop]
      show (match strAt (bytes "-") 1 with | none => OpRes.oob | some cur => _) = _
      rw [show strAt (bytes "-") 1 = some 0 by decide]
      simp only [hd]
      rfl
    rw [opToken, collectOperator, hop]
    rfl
  rw [nextToken, tokenAny]
  simp only [prefetch_ascii 45 _ (show 45 < 128 by omega) (show 45 ≠ 13 by omega), ht, ho, checkLen]
  rw [if_neg (by simp only [List.length_cons]; omega)]

theorem stop_alnum (r : List Nat) (h : Stop r) : (prefetch r).1.alnum = false := by
  have := (stop_type r h).1
  generalize (prefetch r).1 = c at *
  simp only [List.mem_cons, List.not_mem_nil, or_false] at this
  rcases this with rfl | rfl | rfl | rfl | rfl <;> rfl

/-- A word which does not start with "r" is one token. -/
theorem nextToken_word (x : Nat) (w r : List Nat) (hx : x < 128 ∧ lexemType x = .letter ∧ x ≠ 114 ∧ x ≠ 82)
    (hw : ∀ c ∈ w, c < 128 ∧ lexemType c = .letter) (hl : w.length < 0xFFFF) (hr : Stop r) :
    ∃ t, nextToken (x :: w ++ r) = .ok (t, r) ∧ (t = .identifier ∨ ∃ k, t = .keyword k) := by
  obtain ⟨x1, x2, x3, x4⟩ := hx
  have hne : ∀ c, lexemType c = .letter → c ≠ 13 := by rintro c h rfl; exact absurd h (by decide)
  have hci : collectIdentifier (w ++ r) = .ok r := by
    rw [collectIdentifier, skipWhile_run _ w r _ (fun _ _ => stop_alnum r hr) _ (by simp; omega)]
    intro c hc
    obtain ⟨h1, h2⟩ := hw c hc
    exact ⟨h1, hne c h2, by rw [h2]; rfl⟩
  rw [List.cons_append, nextToken, tokenAny]
  simp only [prefetch_ascii x _ x1 (hne x x2), x2]
  rw [if_neg (by omega), identToken, hci]
  simp only [mapRes, checkLen]
  rw [if_neg (by simp only [List.length_cons, List.length_append]; omega)]
  refine ⟨_, rfl, ?_⟩
  split
  · exact .inl rfl
  · exact .inr ⟨_, rfl⟩

/-! ### Strings -/

theorem lexem_tail (x : Nat) (h : x < 64) : lexemType (128 + x) = .utf8Tail := by
  have : ∀ x : Fin 64, lexemType (128 + x.val) = .utf8Tail := by decide
  exact this ⟨x, h⟩

theorem lexem_lead (c : Nat) : (∀ x, 2 ≤ x → x < 32 → c = 192 + x → lexemType c = .utf8Two) ∧ (∀ x, x < 16 → c = 224 + x → lexemType c = .utf8Three) ∧
    (∀ x, x < 8 → c = 240 + x → lexemType c = .utf8Four) := by
  refine ⟨?_, ?_, ?_⟩
  · rintro x h1 h2 rfl
    have : ∀ x : Fin 32, 2 ≤ x.val → lexemType (192 + x.val) = .utf8Two := by decide
    exact this ⟨x, h2⟩ h1
  · rintro x h rfl
    have : ∀ x : Fin 16, lexemType (224 + x.val) = .utf8Three := by decide
    exact this ⟨x, h⟩
  · rintro x h rfl
    have : ∀ x : Fin 8, lexemType (240 + x.val) = .utf8Four := by decide
    exact this ⟨x, h⟩

theorem tails_step (n code x : Nat) (s : List Nat) (h : x < 64) :
    tails (n + 1) code ((128 + x) :: s) = tails n ((code <<< 6) ||| ((128 + x) &&& 0x3F)) s := by
  rw [tails, lexem_tail x h, if_neg (by simp)]

theorem prefetch_good (b : Nat) (s r : List Nat) (t : LT) (ht : lexemType b = t) (hm : t = .utf8Two ∨ t = .utf8Three ∨ t = .utf8Four)
    (hl : t.multi ≤ s.length + 1) (hg : ∀ code, ∃ code', tails (t.multi - 1) code s = (true, code', r)) :
    (prefetch (b :: s)).2 = r ∧ (prefetch (b :: s)).1 ∈ [LT.whitespace, .utf8Two, .utf8Three, .utf8Four] := by
  obtain ⟨code', hc⟩ := hg (((b <<< t.multi) &&& 0xFF) >>> t.multi)
  simp only [prefetch, ht]
  rw [if_neg (by rcases hm with rfl | rfl | rfl <;> simp), if_pos (by rcases hm with rfl | rfl | rfl <;> simp [LT.multi]),
    if_neg (by simp only [List.length_cons]; omega), hc]
  refine ⟨rfl, ?_⟩
  simp only [if_true]
  split
  · simp
  · rcases hm with rfl | rfl | rfl <;> simp

/-- A character which does not end a string. -/
theorem prefetch_utf8 (c : Nat) (r : List Nat) (h : c < 2097152) (h1 : c ≠ 34 ∧ c ≠ 92 ∧ c ≠ 10 ∧ c ≠ 13) :
    (prefetch (Utf8.utf8 c ++ r)).2 = r ∧ ∀ t, (prefetch (Utf8.utf8 c ++ r)).1 = t → t ≠ .eof ∧ t ≠ .invalidUtf8 ∧ t ≠ .string ∧ t ≠ .backslash ∧ t ≠ .eol := by
  have fin : ∀ b s, (prefetch (b :: s)).2 = r ∧ (prefetch (b :: s)).1 ∈ [LT.whitespace, .utf8Two, .utf8Three, .utf8Four] →
      (prefetch (b :: s)).2 = r ∧ ∀ t, (prefetch (b :: s)).1 = t → t ≠ .eof ∧ t ≠ .invalidUtf8 ∧ t ≠ .string ∧ t ≠ .backslash ∧ t ≠ .eol := by
    rintro b s ⟨h1, h2⟩
    refine ⟨h1, ?_⟩
    rintro t rfl
    generalize (prefetch (b :: s)).1 = t at *
    simp only [List.mem_cons, List.not_mem_nil, or_false] at h2
    rcases h2 with rfl | rfl | rfl | rfl <;> simp
  unfold Utf8.utf8
  by_cases a : c < 0x80
  · rw [if_pos a, List.cons_append, List.nil_append, prefetch_ascii c r a (by omega)]
    obtain ⟨_, _, l1, l2, l3, l4, l5⟩ := lexemType_ascii c a
    refine ⟨rfl, ?_⟩
    rintro t rfl
    exact ⟨l1, l2, by rw [ne_eq, l4]; omega, by rw [ne_eq, l5]; omega, by rw [ne_eq, l3]; omega⟩
  · rw [if_neg a]
    by_cases a2 : c < 0x800
    · rw [if_pos a2]
      apply fin
      refine prefetch_good _ _ r .utf8Two ((lexem_lead _).1 (c / 64) (by omega) (by omega) rfl) (.inl rfl) (by simp [LT.multi]) ?_
      intro code
      exact ⟨_, tails_step _ _ _ _ (by omega)⟩
    · rw [if_neg a2]
      by_cases a3 : c < 0x10000
      · rw [if_pos a3]
        apply fin
        refine prefetch_good _ _ r .utf8Three ((lexem_lead _).2.1 (c / 4096) (by omega) rfl) (.inr (.inl rfl)) (by simp [LT.multi]) ?_
        intro code
        exact ⟨_, (tails_step _ _ _ _ (by omega)).trans (tails_step _ _ _ _ (by omega))⟩
      · rw [if_neg a3]
        apply fin
        refine prefetch_good _ _ r .utf8Four ((lexem_lead _).2.2 (c / 262144) (by omega) rfl) (.inr (.inr rfl)) (by simp [LT.multi]) ?_
        intro code
        exact ⟨_, (tails_step _ _ _ _ (by omega)).trans ((tails_step _ _ _ _ (by omega)).trans (tails_step _ _ _ _ (by omega)))⟩

/-- The characters which may stand between the quotes. -/
def Char (c : Nat) : Prop := c < 2097152 ∧ c ≠ 34 ∧ c ≠ 92 ∧ c ≠ 10 ∧ c ≠ 13

theorem collectString_plain (s r : List Nat) (h : ∀ c ∈ s, Char c) : ∀ fuel, s.length < fuel →
    collectString fuel (s.flatMap Utf8.utf8 ++ 34 :: r) = .ok r := by
  induction s with
  | nil =>
    intro f hf
    obtain ⟨f, rfl⟩ : ∃ k, f = k + 1 := ⟨f - 1, by omega⟩
    show collectString (f + 1) (34 :: r) = _
    rw [collectString, prefetch_ascii 34 r (by omega) (by omega)]
    rfl
  | cons c cs ih =>
    intro f hf
    obtain ⟨f, rfl⟩ : ∃ k, f = k + 1 := ⟨f - 1, by omega⟩
    obtain ⟨h1, h2⟩ := h c (by simp)
    obtain ⟨p1, p2⟩ := prefetch_utf8 c (cs.flatMap Utf8.utf8 ++ 34 :: r) h1 h2
    obtain ⟨q1, q2, q3, q4, q5⟩ := p2 _ rfl
    rw [List.flatMap_cons, List.append_assoc, collectString]
    simp only
    rw [if_neg q1, if_neg q2, if_neg q3, if_neg q4, if_neg q5, p1]
    exact ih (fun x hx => h x (by simp [hx])) f (by simp at hf; omega)

theorem utf8_length (s : List Nat) : s.length ≤ (s.flatMap Utf8.utf8).length := by
  induction s with
  | nil => simp
  | cons c cs ih =>
    have := Utf8.utf8_ne_nil c
    simp only [List.flatMap_cons, List.length_append, List.length_cons]; omega

theorem nextToken_string (s r : List Nat) (h : ∀ c ∈ s, Char c) (hl : (s.flatMap Utf8.utf8).length + 2 ≤ 0xFFFF) :
    nextToken (34 :: (s.flatMap Utf8.utf8 ++ 34 :: r)) = .ok (.string, r) := by
  have hu := utf8_length s
  have hcs := collectString_plain s r h ((s.flatMap Utf8.utf8 ++ 34 :: r).length + 1) (by rw [List.length_append]; omega)
  rw [nextToken, tokenAny]
  simp only [prefetch_ascii 34 _ (show 34 < 128 by omega) (show 34 ≠ 13 by omega), show lexemType 34 = .string by decide, hcs, mapRes, checkLen]
  rw [if_neg (by simp only [List.length_cons, List.length_append]; omega)]
  have hb : between (34 :: (s.flatMap Utf8.utf8 ++ 34 :: r)) r = 34 :: s.flatMap Utf8.utf8 ++ [34] := by
    have := between_append (34 :: s.flatMap Utf8.utf8 ++ [34]) r
    simpa using this
  rw [stringType, hb, if_neg (by rw [List.getLast?_concat]; simp)]

/-- A token of valid characters becomes a string. -/
theorem newString_utf8 (s : List Nat) (h : ∀ c ∈ s, c < 2097152) (hne : s ≠ []) (hl : s.length < 0xFFFF) (hb : (s.flatMap Utf8.utf8).length ≤ 4 * 0xFFFF)
    (w : Nat) (al : Nat → Bool) : ∃ k, Utf8.newString false w al (s.flatMap Utf8.utf8) = .ok (k, s) := by
  open Verif.Utf8 in
  have hbytes : ∀ b ∈ s.flatMap utf8, b < 256 := by
    intro b hb
    obtain ⟨c, hc, hb⟩ := List.mem_flatMap.mp hb
    exact utf8_bytes c (h c hc) b hb
  have hscan : getLen false w al (s.flatMap utf8) = .ok (s.length, maxMulti 0 s) := by
    rw [getLen_eq _ _ _ _ hbytes, slow_utf8 s _ 0 0 h (Nat.lt_succ_self _), Nat.zero_add]
  have hge := (maxMulti_ge s 0).2
  have hu := utf8_length s
  have hdec : ∀ width, 6 ≤ width → (∀ c ∈ s, c < 2 ^ width) → decode false width (s.flatMap utf8) = .ok s := fun width hw hc =>
    decode_utf8 width hw s _ (fun c hcm => ⟨h c hcm, hc c hcm⟩) (Nat.lt_succ_self _)
  have hfm : s.flatMap utf8 ≠ [] := by
    intro he
    rw [he] at hu
    cases s with
    | nil => exact hne rfl
    | cons _ _ => simp at hu
  refine ⟨kindFromMax (maxMulti 0 s), ?_⟩
  rw [newString, if_neg (by omega), if_neg hfm, hscan]
  simp only
  rw [if_pos hl]
  have hcode : ∀ c ∈ s, c < 2 ^ (kindFromMax (maxMulti 0 s)).width := by
    intro c hc
    have hlim := h c hc
    have hcm : c < 0x80 ∨ c ≤ maxMulti 0 s := by
      by_cases h80 : 0x80 ≤ c
      · right; exact hge c hc h80
      · left; omega
    unfold kindFromMax
    split
    · show c < 256; omega
    · split
      · show c < 256; omega
      · split
        · show c < 65536; omega
        · show c < 4294967296; omega
  have hw6 : 6 ≤ (kindFromMax (maxMulti 0 s)).width := by
    cases kindFromMax (maxMulti 0 s) <;> simp [Kind.width]
  rw [hdec _ hw6 hcode]
  simp only
  rw [if_pos, List.take_length]
  cases kindFromMax (maxMulti 0 s) <;> simp only [allocBytes, Kind.flag, Kind.elemBytes, Nat.shiftLeft_eq] <;> omega

end Verif.Json
