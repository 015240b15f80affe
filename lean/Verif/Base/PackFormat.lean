import Verif.Base.Pack

/-
Format strings of `pack` and `unpack`: a grammar, and what `process_pack_format` makes of them.
-/
set_option linter.constructorNameAsVariable false

namespace Verif.Base.Pack

/-! ### Grammar -/

/-- Elements of a format: a change of byte order, or an item with size and count. -/
inductive Tok
  | order (big : Bool)
  | item (f : Fmt) (size : Option Nat) (count : Nat)
  deriving DecidableEq, Repr

def Spaces (l : List Nat) : Prop := ∀ c ∈ l, c = 32

/-- Value of decimal digits. -/
def decimal (ds : List Nat) : Nat := ds.foldl (fun n d => n * 10 + (d - 48)) 0

/-- Digits of a number which `pack_format_get_count` accepts. -/
def Number (n : Nat) (ds : List Nat) : Prop := ds ≠ [] ∧ (∀ d ∈ ds, 48 ≤ d ∧ d ≤ 57) ∧ decimal ds = n ∧ n < 4294967290

/-- A count with spaces after it, or nothing. -/
def CountText (n : Nat) (l : List Nat) : Prop := (l = [] ∧ n = 1) ∨ ∃ ds sp, l = ds ++ sp ∧ Number n ds ∧ Spaces sp

def letter : Fmt → Nat
  | .x => 120
  | .u => 117
  | .i => 105
  | .f => 102
  | .b => 98
  | .s => 115

/-- The text does not start with a digit. -/
def NoDigit (l : List Nat) : Prop := ∀ c s, l = c :: s → ¬ (48 ≤ c ∧ c ≤ 57)

/-- The format character with its size, followed by `rest`. -/
inductive BodyText : Fmt → Option Nat → List Nat → List Nat → Prop
  | pad (rest : List Nat) : BodyText .x (some 1) [120] rest
  | sized (f : Fmt) (n : Nat) (ds rest : List Nat) : f ≠ .x → Number n ds → NoDigit rest → BodyText f (some n) (letter f :: ds) rest
  | all (rest : List Nat) : NoDigit rest → BodyText .s none [115] rest

/-- `t` is the text of the element, if followed by `rest`. -/
inductive TokText : Tok → List Nat → List Nat → Prop
  | order (big : Bool) (n : Nat) (sp cl rest : List Nat) : Spaces sp → CountText n cl →
      TokText (.order big) (sp ++ (cl ++ [if big then 62 else 60])) rest
  | item (f : Fmt) (size : Option Nat) (n : Nat) (sp cl body rest : List Nat) : Spaces sp → CountText n cl → BodyText f size body rest →
      TokText (.item f size n) (sp ++ (cl ++ body)) rest

/-- `t` is the text of the elements, if followed by `rest`. -/
inductive ToksText : List Tok → List Nat → List Nat → Prop
  | nil (rest : List Nat) : ToksText [] [] rest
  | cons (tok : Tok) (toks : List Tok) (t ts rest : List Nat) : TokText tok t (ts ++ rest) → ToksText toks ts rest →
      ToksText (tok :: toks) (t ++ ts) rest

/-- A whole format string. -/
def FormatText (toks : List Tok) (fmt : List Nat) : Prop := ∃ t sp, fmt = t ++ sp ∧ Spaces sp ∧ ToksText toks t sp

theorem ToksText.snoc {toks : List Tok} {t rest' : List Nat} (h : ToksText toks t rest') {tok : Tok} {t1 rest : List Nat} (e : rest' = t1 ++ rest)
    (h1 : TokText tok t1 rest) : ToksText (toks ++ [tok]) (t ++ t1) rest := by
  induction h with
  | nil r => subst e; have := ToksText.cons tok [] t1 [] rest (by simpa using h1) (.nil rest); simpa using this
  | cons tok' toks' t' ts r ht _ ih =>
    subst e
    rw [List.append_assoc]
    exact .cons tok' _ t' _ rest (by simpa [List.append_assoc] using ht) (ih rfl)

/-! ### Scanning -/

theorem isDigit_iff (c : Nat) : isDigit c = true ↔ 48 ≤ c ∧ c ≤ 57 := by
  simp [isDigit]

theorem skipLoop_stop (c : Nat) (s : List Nat) (h : c ≠ 32) : skipLoop c s = c :: s := by
  have : isSpace c = false := by simp [isSpace, h]
  cases s <;> simp [skipLoop, this]

theorem skipLoop_eq (s : List Nat) : ∀ c, skipLoop c s = (c :: s).dropWhile isSpace := by
  induction s with
  | nil => intro c; by_cases h : isSpace c <;> simp [skipLoop, h]
  | cons d s ih =>
    intro c
    by_cases h : isSpace c
    · rw [skipLoop, if_pos h, ih, List.dropWhile_cons_of_pos h]
    · rw [skipLoop, if_neg h, List.dropWhile_cons_of_neg h]

theorem skipSpaces_eq (s : List Nat) : skipSpaces s = s.dropWhile isSpace := by
  cases s with
  | nil => rfl
  | cons c s => exact skipLoop_eq s c

theorem skipSpaces_spaces (sp s : List Nat) (h : Spaces sp) : skipSpaces (sp ++ s) = skipSpaces s := by
  rw [skipSpaces_eq, skipSpaces_eq]
  induction sp with
  | nil => rfl
  | cons c sp ih =>
    have hc : c = 32 := h c (by simp)
    rw [List.cons_append, List.dropWhile_cons_of_pos (by simp [isSpace, hc])]
    exact ih (fun d hd => h d (by simp [hd]))

theorem skipSpaces_split (s : List Nat) : ∃ sp, s = sp ++ skipSpaces s ∧ Spaces sp ∧ ∀ c r, skipSpaces s = c :: r → c ≠ 32 := by
  rw [skipSpaces_eq]
  refine ⟨s.takeWhile isSpace, List.takeWhile_append_dropWhile.symm, ?_, ?_⟩
  · intro c hc
    have := List.all_takeWhile (p := isSpace) (l := s)
    have := List.all_eq_true.mp this c hc
    simpa [isSpace] using this
  · intro c r e
    have := List.head?_dropWhile_not isSpace s
    rw [e] at this
    simpa [isSpace] using this

theorem skipSpaces_cons (c : Nat) (s : List Nat) (h : c ≠ 32) : skipSpaces (c :: s) = c :: s := skipLoop_stop c s h

/-- Value of digits after a number. -/
def more (n : Nat) (ds : List Nat) : Nat := ds.foldl (fun n d => n * 10 + (d - 48)) n

theorem more_ge (ds : List Nat) : ∀ n, n ≤ more n ds := by
  induction ds with
  | nil => intro n; exact Nat.le_refl _
  | cons d ds ih => intro n; have := ih (n * 10 + (d - 48)); show n ≤ more (n * 10 + (d - 48)) ds; omega

theorem countLoop_ok (ds rest : List Nat) (hd : ∀ d ∈ ds, 48 ≤ d ∧ d ≤ 57) (hr : NoDigit rest) :
    ∀ n, more n ds < 4294967290 → countLoop n (ds ++ rest) = (some (more n ds), rest) := by
  induction ds with
  | nil =>
    intro n _
    cases rest with
    | nil => rfl
    | cons c s =>
      have := hr c s rfl
      rw [← isDigit_iff] at this
      simp [countLoop, this, more]
  | cons d ds ih =>
    intro n h
    have h1 : more (n * 10 + (d - 48)) ds < 4294967290 := h
    have h2 := more_ge ds (n * 10 + (d - 48))
    have hd1 := hd d (by simp)
    rw [List.cons_append, countLoop, if_neg (by simp [isDigit_iff, hd1]), if_neg (by omega)]
    exact ih (fun x hx => hd x (by simp [hx])) _ h1

theorem countLoop_inv (s : List Nat) : ∀ n k rest, n < 4294967290 → countLoop n s = (some k, rest) →
    ∃ ds, s = ds ++ rest ∧ (∀ d ∈ ds, 48 ≤ d ∧ d ≤ 57) ∧ more n ds = k ∧ k < 4294967290 ∧ NoDigit rest := by
  induction s with
  | nil =>
    intro n k rest hn h
    simp only [countLoop, Prod.mk.injEq, Option.some.injEq] at h
    exact ⟨[], by simp [h.2.symm], by simp, h.1, by omega, by simp [NoDigit, h.2.symm]⟩
  | cons c s ih =>
    intro n k rest hn h
    rw [countLoop] at h
    by_cases hc : isDigit c = true
    · rw [if_neg (by simp [hc])] at h
      rw [isDigit_iff] at hc
      by_cases hb : n ≥ 429496729
      · rw [if_pos hb] at h; simp at h
      · rw [if_neg hb] at h
        obtain ⟨ds, e1, e2, e3, e4, e5⟩ := ih _ k rest (by omega) h
        exact ⟨c :: ds, by rw [e1]; rfl, by simpa [hc] using e2, e3, e4, e5⟩
    · rw [if_pos hc] at h
      simp only [Prod.mk.injEq, Option.some.injEq] at h
      refine ⟨[], by simp [h.2.symm], by simp, h.1, by omega, ?_⟩
      rw [← h.2]
      intro d r e
      simp only [List.cons.injEq] at e
      rw [← e.1, ← isDigit_iff]
      exact hc

theorem getCount_ok (n : Nat) (ds rest : List Nat) (h : Number n ds) (hr : NoDigit rest) : getCount (ds ++ rest) = (some n, rest) := by
  obtain ⟨h1, h2, h3, h4⟩ := h
  cases ds with
  | nil => exact absurd rfl h1
  | cons d ds =>
    rw [List.cons_append, getCount]
    have e : more (d - 48) ds = n := by rw [← h3]; simp [more, decimal]
    rw [countLoop_ok ds rest (fun x hx => h2 x (by simp [hx])) hr _ (by omega), e]

theorem getCount_inv (c : Nat) (s : List Nat) (hc : 48 ≤ c ∧ c ≤ 57) (k : Nat) (rest : List Nat) (h : getCount (c :: s) = (some k, rest)) :
    ∃ ds, c :: s = ds ++ rest ∧ Number k ds ∧ NoDigit rest := by
  rw [getCount] at h
  obtain ⟨ds, e1, e2, e3, e4, e5⟩ := countLoop_inv s (c - 48) k rest (by omega) h
  exact ⟨c :: ds, by rw [e1]; rfl, ⟨by simp, by simpa [hc] using e2, by rw [← e3]; simp [more, decimal], e4⟩, e5⟩

theorem countAndChar_ok (n : Nat) (cl : List Nat) (h : CountText n cl) (c : Nat) (s : List Nat) (hc : ¬ (48 ≤ c ∧ c ≤ 57)) (hs : c ≠ 32) :
    ∃ d r, cl ++ c :: s = d :: r ∧ d ≠ 32 ∧ countAndChar d r = some (n, c, s) := by
  rcases h with ⟨rfl, rfl⟩ | ⟨ds, sp, rfl, hn, hsp⟩
  · refine ⟨c, s, rfl, hs, ?_⟩
    rw [countAndChar, if_neg (by rw [isDigit_iff]; exact hc)]
  · cases hds : ds with
    | nil => exact absurd hds hn.1
    | cons d ds' =>
      have hd := hn.2.1 d (by simp [hds])
      refine ⟨d, ds' ++ sp ++ c :: s, by simp, by omega, ?_⟩
      rw [countAndChar, if_pos (by rw [isDigit_iff]; exact hd)]
      have e : d :: (ds' ++ sp ++ c :: s) = ds ++ (sp ++ c :: s) := by rw [hds]; simp
      have hnd : NoDigit (sp ++ c :: s) := by
        intro x r e
        cases sp with
        | nil => simp only [List.nil_append, List.cons.injEq] at e; rw [← e.1]; exact hc
        | cons y sp =>
          simp only [List.cons_append, List.cons.injEq] at e
          have := hsp y (by simp)
          omega
      rw [e, getCount_ok n ds _ hn hnd]
      simp only
      rw [skipSpaces_spaces sp _ hsp, skipSpaces_cons c s hs]

theorem countAndChar_inv (d : Nat) (r : List Nat) (n c : Nat) (s : List Nat) (h : countAndChar d r = some (n, c, s)) :
    ∃ cl, d :: r = cl ++ c :: s ∧ CountText n cl := by
  rw [countAndChar] at h
  by_cases hd : isDigit d = true
  · rw [if_pos hd] at h
    rw [isDigit_iff] at hd
    rcases hg : getCount (d :: r) with ⟨_ | k, s'⟩
    · rw [hg] at h; simp at h
    · rw [hg] at h
      simp only at h
      obtain ⟨ds, e1, e2, e3⟩ := getCount_inv d r hd k s' hg
      obtain ⟨sp, e4, e5, _⟩ := skipSpaces_split s'
      cases hk : skipSpaces s' with
      | nil => rw [hk] at h; simp at h
      | cons c' s'' =>
        rw [hk] at h e4
        simp only [Option.some.injEq, Prod.mk.injEq] at h
        obtain ⟨rfl, rfl, rfl⟩ := h
        exact ⟨ds ++ sp, by rw [e1, e4]; simp, Or.inr ⟨ds, sp, rfl, e2, e5⟩⟩
  · rw [if_neg hd] at h
    simp only [Option.some.injEq, Prod.mk.injEq] at h
    obtain ⟨rfl, rfl, rfl⟩ := h
    exact ⟨[], rfl, Or.inl ⟨rfl, rfl⟩⟩

theorem sized_ok (f : Fmt) (n : Nat) (ds rest : List Nat) (h : Number n ds) (hr : NoDigit rest) :
    sized f (ds ++ rest) = some (.item f (some n), rest) := by
  have := getCount_ok n ds rest h hr
  cases hds : ds with
  | nil => exact absurd hds h.1
  | cons d ds' =>
    have hd := h.2.1 d (by simp [hds])
    rw [hds] at this
    rw [List.cons_append] at this ⊢
    rw [sized, if_pos (by rw [isDigit_iff]; exact hd), this]

theorem sized_all (rest : List Nat) (hr : NoDigit rest) : sized .s rest = some (.item .s none, rest) := by
  cases rest with
  | nil => rfl
  | cons d r =>
    have := hr d r rfl
    rw [← isDigit_iff] at this
    rw [sized, if_neg this, if_pos rfl]

theorem sized_inv (f : Fmt) (hf : f ≠ .x) (s : List Nat) (a : Act) (rest : List Nat) (h : sized f s = some (a, rest)) :
    ∃ size body, a = .item f size ∧ letter f :: s = body ++ rest ∧ BodyText f size body rest := by
  unfold sized at h
  cases s with
  | nil =>
    simp only at h
    by_cases hs : f = .s
    · rw [if_pos hs] at h
      simp only [Option.some.injEq, Prod.mk.injEq] at h
      obtain ⟨rfl, rfl⟩ := h
      subst hs
      exact ⟨none, [115], rfl, rfl, .all [] (by simp [NoDigit])⟩
    · rw [if_neg hs] at h; simp at h
  | cons d r =>
    simp only at h
    by_cases hd : isDigit d = true
    · rw [if_pos hd] at h
      rw [isDigit_iff] at hd
      rcases hg : getCount (d :: r) with ⟨_ | k, s'⟩
      · rw [hg] at h; simp at h
      · rw [hg] at h
        simp only [Option.some.injEq, Prod.mk.injEq] at h
        obtain ⟨rfl, rfl⟩ := h
        obtain ⟨ds, e1, e2, e3⟩ := getCount_inv d r hd k s' hg
        exact ⟨some k, letter f :: ds, rfl, by rw [e1]; rfl, .sized f k ds s' hf e2 e3⟩
    · rw [if_neg hd] at h
      by_cases hs : f = .s
      · rw [if_pos hs] at h
        simp only [Option.some.injEq, Prod.mk.injEq] at h
        obtain ⟨rfl, rfl⟩ := h
        subst hs
        refine ⟨none, [115], rfl, rfl, .all _ ?_⟩
        intro x r' e
        simp only [List.cons.injEq] at e
        rw [← e.1, ← isDigit_iff]
        exact hd
      · rw [if_neg hs] at h; simp at h

theorem act_body (f : Fmt) (size : Option Nat) (body rest : List Nat) (h : BodyText f size body rest) :
    ∃ s, body ++ rest = letter f :: s ∧ act (letter f) s = some (.item f size, rest) := by
  cases h with
  | pad => exact ⟨rest, rfl, rfl⟩
  | sized f n ds rest hf hn hr =>
    refine ⟨ds ++ rest, rfl, ?_⟩
    have := sized_ok f n ds rest hn hr
    cases f <;> first | exact absurd rfl hf | exact this
  | all rest hr => exact ⟨rest, rfl, sized_all rest hr⟩

theorem act_inv (c : Nat) (s : List Nat) (a : Act) (rest : List Nat) (h : act c s = some (a, rest)) :
    (∃ big, a = .order big ∧ c = (if big then 62 else 60) ∧ s = rest) ∨
    ∃ f size body, a = .item f size ∧ c :: s = body ++ rest ∧ BodyText f size body rest := by
  unfold act at h
  by_cases h1 : c = 60
  · rw [if_pos h1] at h
    simp only [Option.some.injEq, Prod.mk.injEq] at h
    exact Or.inl ⟨false, h.1.symm, h1, h.2⟩
  rw [if_neg h1] at h
  by_cases h2 : c = 62
  · rw [if_pos h2] at h
    simp only [Option.some.injEq, Prod.mk.injEq] at h
    exact Or.inl ⟨true, h.1.symm, h2, h.2⟩
  rw [if_neg h2] at h
  right
  by_cases h3 : c = 120
  · rw [if_pos h3] at h
    simp only [Option.some.injEq, Prod.mk.injEq] at h
    exact ⟨.x, some 1, [120], h.1.symm, by rw [h3, h.2]; rfl, .pad rest⟩
  rw [if_neg h3] at h
  have key : ∀ f, f ≠ .x → c = letter f → sized f s = some (a, rest) →
      ∃ f size body, a = .item f size ∧ c :: s = body ++ rest ∧ BodyText f size body rest := by
    intro f hf hc hs
    obtain ⟨size, body, e1, e2, e3⟩ := sized_inv f hf s a rest hs
    exact ⟨f, size, body, e1, by rw [hc]; exact e2, e3⟩
  by_cases h4 : c = 117
  · rw [if_pos h4] at h; exact key .u (by decide) h4 h
  rw [if_neg h4] at h
  by_cases h5 : c = 105
  · rw [if_pos h5] at h; exact key .i (by decide) h5 h
  rw [if_neg h5] at h
  by_cases h6 : c = 102
  · rw [if_pos h6] at h; exact key .f (by decide) h6 h
  rw [if_neg h6] at h
  by_cases h7 : c = 98
  · rw [if_pos h7] at h; exact key .b (by decide) h7 h
  rw [if_neg h7] at h
  by_cases h8 : c = 115
  · rw [if_pos h8] at h; exact key .s (by decide) h8 h
  · rw [if_neg h8] at h; simp at h

/-! ### The loop -/

variable {σ : Type}

/-- Running the handler over elements. -/
def runToks (h : σ → Call → Out σ) : Bool → List Tok → σ → Out σ
  | _, [], st => .ok st
  | _, .order big :: toks, st => runToks h big toks st
  | big, .item f size n :: toks, st =>
    match h st ⟨f, size, n, big⟩ with
    | .ok st => runToks h big toks st
    | .raise st => .raise st
    | .bad => .bad

theorem letter_ne (f : Fmt) : letter f ≠ 32 ∧ ¬ (48 ≤ letter f ∧ letter f ≤ 57) := by
  cases f <;> decide

theorem TokText.pos {tok : Tok} {t rest : List Nat} (h : TokText tok t rest) : 0 < t.length := by
  cases h with
  | order big n sp cl rest h1 h2 => simp; omega
  | item f size n sp cl body rest h1 h2 h3 => cases h3 <;> simp <;> omega

/-- The next element of a format. -/
theorem process_tok (h : σ → Call → Out σ) (fuel : Nat) (big : Bool) (st : σ) (tok : Tok) (t rest : List Nat) (ht : TokText tok t rest) :
    process h (fuel + 1) big (t ++ rest) st =
      match tok with
      | .order big => process h fuel big rest st
      | .item f size n =>
        match h st ⟨f, size, n, big⟩ with
        | .ok st => process h fuel big rest st
        | .raise st => .raise st
        | .bad => .bad := by
  cases ht with
  | order big' n sp cl rest h1 h2 =>
    obtain ⟨d, r, e1, e2, e3⟩ := countAndChar_ok n cl h2 (if big' then 62 else 60) rest (by cases big' <;> decide) (by cases big' <;> decide)
    have e : sp ++ (cl ++ [if big' = true then 62 else 60]) ++ rest = sp ++ (d :: r) := by rw [← e1]; simp
    rw [process, e, skipSpaces_spaces sp _ h1, skipSpaces_cons d r e2]
    simp only [e3]
    cases big' <;> rfl
  | item f size n sp cl body rest h1 h2 h3 =>
    obtain ⟨s, e4, e5⟩ := act_body f size body rest h3
    obtain ⟨d, r, e1, e2, e3⟩ := countAndChar_ok n cl h2 (letter f) s (letter_ne f).2 (letter_ne f).1
    have e : sp ++ (cl ++ body) ++ rest = sp ++ (d :: r) := by rw [← e1, ← e4]; simp
    rw [process, e, skipSpaces_spaces sp _ h1, skipSpaces_cons d r e2]
    simp only [e3, e5]
    cases h st ⟨f, size, n, big⟩ <;> rfl

theorem process_end (h : σ → Call → Out σ) (fuel : Nat) (big : Bool) (st : σ) (sp : List Nat) (hs : Spaces sp) :
    process h (fuel + 1) big sp st = .ok st := by
  have := skipSpaces_spaces sp [] hs
  rw [List.append_nil] at this
  rw [process, this]
  rfl

/-- A format is a run of the handler over its elements. -/
theorem process_text (h : σ → Call → Out σ) (toks : List Tok) : ∀ (t sp : List Nat) (big : Bool) (st : σ) (fuel : Nat), ToksText toks t sp → Spaces sp →
    t.length < fuel → process h fuel big (t ++ sp) st = runToks h big toks st := by
  induction toks with
  | nil =>
    intro t sp big st fuel ht hs hf
    cases ht
    obtain ⟨k, rfl⟩ : ∃ k, fuel = k + 1 := ⟨fuel - 1, by simp at hf; omega⟩
    exact process_end h k big st sp hs
  | cons tok toks ih =>
    intro t sp big st fuel ht hs hf
    cases ht with
    | cons _ _ t1 ts _ h1 h2 =>
      have hp := h1.pos
      rw [List.length_append] at hf
      obtain ⟨k, rfl⟩ : ∃ k, fuel = k + 1 := ⟨fuel - 1, by omega⟩
      rw [List.append_assoc, process_tok h k big st tok t1 (ts ++ sp) h1]
      cases tok with
      | order big' => exact ih ts sp big' st k h2 hs (by omega)
      | item f size n =>
        simp only [runToks]
        cases h st ⟨f, size, n, big⟩ with
        | ok st => exact ih ts sp big st k h2 hs (by omega)
        | raise st => rfl
        | bad => rfl

/-- What a format starts with. -/
theorem process_cases (h : σ → Call → Out σ) (fuel : Nat) (big : Bool) (st : σ) (fmt : List Nat) :
    (process h (fuel + 1) big fmt st = .ok st ∧ Spaces fmt) ∨ process h (fuel + 1) big fmt st = .raise st ∨
    ∃ tok t rest, fmt = t ++ rest ∧ TokText tok t rest := by
  obtain ⟨sp, e1, e2, _⟩ := skipSpaces_split fmt
  cases hk : skipSpaces fmt with
  | nil => left; rw [process, hk]; rw [hk, List.append_nil] at e1; exact ⟨rfl, e1 ▸ e2⟩
  | cons d r =>
    rw [hk] at e1
    rw [process, hk]
    simp only
    cases hc : countAndChar d r with
    | none => exact Or.inr (Or.inl rfl)
    | some x =>
      obtain ⟨n, c, s⟩ := x
      simp only
      obtain ⟨cl, e3, e4⟩ := countAndChar_inv d r n c s hc
      cases ha : act c s with
      | none => exact Or.inr (Or.inl rfl)
      | some y =>
        obtain ⟨a, rest⟩ := y
        right; right
        rcases act_inv c s a rest ha with ⟨big', _, e6, e7⟩ | ⟨f, size, body, _, e6, e7⟩
        · exact ⟨.order big', sp ++ (cl ++ [if big' then 62 else 60]), rest, by rw [e1, e3, ← e6, e7]; simp, .order big' n sp cl rest e2 e4⟩
        · exact ⟨.item f size n, sp ++ (cl ++ body), rest, by rw [e1, e3, e6]; simp, .item f size n sp cl body rest e2 e4 e7⟩

/-- If no item in the format takes a good state to `bad`, neither does the format. -/
theorem process_safe (h : σ → Call → Out σ) (good : σ → Prop) (small : Tok → Prop) (fmt : List Nat)
    (hs : ∀ toks tok t rest, fmt = t ++ rest → ToksText (toks ++ [tok]) t rest → small tok)
    (hstep : ∀ st f size n big, good st → small (.item f size n) → h st ⟨f, size, n, big⟩ ≠ .bad ∧ ∀ st', h st ⟨f, size, n, big⟩ = .ok st' → good st') :
    ∀ (fuel : Nat) (done : List Tok) (t s : List Nat) (big : Bool) (st : σ), fmt = t ++ s → ToksText done t s → good st → s.length < fuel →
      process h fuel big s st ≠ .bad ∧ ∀ st', process h fuel big s st = .ok st' → good st' := by
  intro fuel
  induction fuel with
  | zero => intro done t s big st _ _ _ hf; omega
  | succ fuel ih =>
    intro done t s big st e ht hg hf
    rcases process_cases h fuel big st s with ⟨hp, _⟩ | hp | ⟨tok, t1, rest, e1, e2⟩
    · rw [hp]; exact ⟨by simp, fun st' he => by simp only [Out.ok.injEq] at he; subst he; exact hg⟩
    · rw [hp]; simp
    · have hsn := ht.snoc e1 e2
      have e' : fmt = (t ++ t1) ++ rest := by rw [e, e1]; simp
      have hsm := hs done tok (t ++ t1) rest e' hsn
      have hpos := e2.pos
      have hl : rest.length < fuel := by rw [e1, List.length_append] at hf; omega
      rw [e1, process_tok h fuel big st tok t1 rest e2]
      cases tok with
      | order big' => exact ih _ _ _ big' st e' hsn hg hl
      | item f size n =>
        simp only
        obtain ⟨k1, k2⟩ := hstep st f size n big hg hsm
        cases hh : h st ⟨f, size, n, big⟩ with
        | ok st' => exact ih _ _ _ big st' e' hsn (k2 st' hh) hl
        | raise st' => simp
        | bad => exact absurd hh k1

/-- A format which is accepted is in the grammar, and all its items have been done. -/
theorem process_ok (h : σ → Call → Out σ) : ∀ (fuel : Nat) (big : Bool) (s : List Nat) (st st' : σ), process h fuel big s st = .ok st' →
    ∃ toks, FormatText toks s ∧ runToks h big toks st = .ok st' := by
  intro fuel
  induction fuel with
  | zero => intro big s st st' hp; simp [process] at hp
  | succ fuel ih =>
    intro big s st st' hp
    rcases process_cases h fuel big st s with ⟨e, hs⟩ | e | ⟨tok, t1, rest, rfl, e2⟩
    · rw [e] at hp
      exact ⟨[], ⟨[], s, rfl, hs, .nil s⟩, hp⟩
    · rw [e] at hp; simp at hp
    · rw [process_tok h fuel big st tok t1 rest e2] at hp
      have build : ∀ toks, FormatText toks rest → FormatText (tok :: toks) (t1 ++ rest) := by
        rintro toks ⟨t, sp, rfl, hsp, ht⟩
        exact ⟨t1 ++ t, sp, by simp, hsp, .cons tok toks t1 t sp e2 ht⟩
      cases tok with
      | order big' =>
        obtain ⟨toks, f1, f2⟩ := ih big' rest st st' hp
        exact ⟨_, build toks f1, f2⟩
      | item f size n =>
        simp only at hp
        cases hh : h st ⟨f, size, n, big⟩ with
        | ok st1 =>
          rw [hh] at hp
          obtain ⟨toks, f1, f2⟩ := ih big rest st1 st' hp
          exact ⟨_, build toks f1, by simp only [runToks, hh]; exact f2⟩
        | raise st1 => rw [hh] at hp; simp at hp
        | bad => rw [hh] at hp; simp at hp

end Verif.Base.Pack
