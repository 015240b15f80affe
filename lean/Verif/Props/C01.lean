import Verif.Misc.ParseIntLemmas
/-! C01 and C02: integer literals. -/
namespace Verif.Misc
open Spec

theorem dec_char_cases {c : Nat} (h : c = 95 ∨ (digitVal .dec c).isSome) :
    c = 95 ∨ (48 ≤ c ∧ c ≤ 57) := by
  rcases h with h | h
  · exact .inl h
  · simp only [digitVal] at h
    split at h
    · right; assumption
    · simp at h

theorem parseUnsigned_dec (neg : Bool) (body : List Nat)
    (hch : ∀ c ∈ body, c = 95 ∨ (digitVal .dec c).isSome) :
    parseUnsigned neg body = parseBody 10 neg body := by
  unfold parseUnsigned
  split
  · rename_i t c rest
    have ht := dec_char_cases (hch t (by simp))
    rw [if_neg (by omega), if_neg (by omega)]
  · rfl

theorem parseInt_nosign (s : List Nat) (h : ∀ c, s.head? = some c → c ≠ 45 ∧ c ≠ 43) :
    parseInt s = parseUnsigned false s := by
  unfold parseInt
  split
  · exact absurd rfl (h 45 rfl).1
  · exact absurd rfl (h 43 rfl).2
  · rfl

/-- Text after the sign. -/
def unsignedText (l : Literal) : List Nat :=
  (match l.radix, l.upper with
    | .dec, _ => []
    | .hex, false => [48, 120] | .hex, true => [48, 88]
    | .bin, false => [48, 98] | .bin, true => [48, 66]) ++ l.body

theorem text_eq (l : Literal) : l.text =
    (match l.sign with | none => [] | some true => [45] | some false => [43]) ++ unsignedText l := by
  obtain ⟨sgn, radix, up, body⟩ := l
  cases radix <;> cases up <;> rcases sgn with _ | (_ | _) <;> rfl

theorem parseUnsigned_text (neg : Bool) (l : Literal) (hwf : l.WF) :
    parseUnsigned neg (unsignedText l) = parseBody l.radix.base neg l.body := by
  obtain ⟨sgn, radix, up, body⟩ := l
  obtain ⟨hne, hch⟩ := hwf
  simp only at hne hch
  cases body with
  | nil => exact absurd rfl hne
  | cons c cs =>
    cases radix with
    | dec => exact parseUnsigned_dec neg _ hch
    | hex => cases up <;> rfl
    | bin => cases up <;> rfl

theorem parseInt_text (l : Literal) (hwf : l.WF) : parseInt l.text = expected l := by
  rw [← parseBody_spec l hwf, ← parseUnsigned_text _ l hwf]
  rw [text_eq]
  cases hs : l.sign with
  | none =>
    have hn : l.negative = false := by simp [Literal.negative, hs]
    rw [hn]
    apply parseInt_nosign
    intro c hc
    obtain ⟨sgn, radix, up, body⟩ := l
    obtain ⟨hne, hch⟩ := hwf
    cases body with
    | nil => exact absurd rfl hne
    | cons d ds =>
      cases radix with
      | dec =>
        simp [unsignedText] at hc
        have := dec_char_cases (hch d (by simp)); omega
      | hex => cases up <;> simp [unsignedText] at hc <;> omega
      | bin => cases up <;> simp [unsignedText] at hc <;> omega
  | some b =>
    have hn : l.negative = b := by simp [Literal.negative, hs]
    rw [hn]; cases b <;> rfl

theorem parseBody_err (r : Radix) (neg : Bool) (body : List Nat) (h : parseBody r.base neg body ≠ .err) :
    body ≠ [] ∧ ∀ c ∈ body, c = 95 ∨ (digitVal r c).isSome := by
  by_cases hh : body.all (if r.base = 16 then isHexCh else if r.base = 2 then isBinCh else isDecCh)
      = false ∨ body = []
  · exact absurd (by rw [parseBody]; exact if_pos hh) h
  · have h1 : ¬ body = [] := fun e => hh (.inr e)
    refine ⟨h1, fun c hc => (good_iff r c).mp (List.all_eq_true.mp ?_ c hc)⟩
    cases hb : body.all (if r.base = 16 then isHexCh else if r.base = 2 then isBinCh else isDecCh) with
    | true => rfl
    | false => exact absurd (Or.inl hb) hh

theorem parseUnsigned_sound (neg : Bool) (s : List Nat) (h : parseUnsigned neg s ≠ .err) :
    ∀ sgn, ∃ l : Literal, l.sign = sgn ∧ l.WF ∧ unsignedText l = s := by
  intro sgn
  unfold parseUnsigned at h
  split at h
  · rename_i t c rest
    split at h
    · rename_i ht
      have hw := parseBody_err .hex neg _ h
      rcases ht with ht | ht
      · exact ⟨⟨sgn, .hex, false, c :: rest⟩, rfl, hw, by simp [unsignedText, ht]⟩
      · exact ⟨⟨sgn, .hex, true, c :: rest⟩, rfl, hw, by simp [unsignedText, ht]⟩
    · split at h
      · rename_i ht
        have hw := parseBody_err .bin neg _ h
        rcases ht with ht | ht
        · exact ⟨⟨sgn, .bin, false, c :: rest⟩, rfl, hw, by simp [unsignedText, ht]⟩
        · exact ⟨⟨sgn, .bin, true, c :: rest⟩, rfl, hw, by simp [unsignedText, ht]⟩
      · have hw := parseBody_err .dec neg _ h
        exact ⟨⟨sgn, .dec, false, _⟩, rfl, hw, by simp [unsignedText]⟩
  · have hw := parseBody_err .dec neg _ h
    exact ⟨⟨sgn, .dec, false, _⟩, rfl, hw, by simp [unsignedText]⟩

theorem parseInt_sound (s : List Nat) (h : parseInt s ≠ .err) : ∃ l : Literal, l.WF ∧ l.text = s := by
  unfold parseInt at h
  split at h
  · obtain ⟨l, h1, h2, h3⟩ := parseUnsigned_sound true _ h (some true)
    refine ⟨l, h2, ?_⟩
    rw [← h3, text_eq, h1]; rfl
  · obtain ⟨l, h1, h2, h3⟩ := parseUnsigned_sound false _ h (some false)
    refine ⟨l, h2, ?_⟩
    rw [← h3, text_eq, h1]; rfl
  · obtain ⟨l, h1, h2, h3⟩ := parseUnsigned_sound false _ h none
    refine ⟨l, h2, ?_⟩
    rw [← h3, text_eq, h1]; rfl

/-- **C01.** Only integer literals are accepted; an accepted literal yields its meaning, a rejected
well-formed literal has no meaning (it is out of range), and every representable literal other
than a negative one denoting the minimum (see C02) is accepted. -/
theorem C01_literal_value :
    (∀ s v, parseInt s = .ok v → ∃ l : Literal, l.WF ∧ l.text = s ∧ l.meaning = some v) ∧
    (∀ l : Literal, l.WF → (parseInt l.text = .err ↔ l.meaning = none)) ∧
    (∀ l : Literal, l.WF → ∀ v, l.meaning = some v → ¬ (l.negative = true ∧ v = -2^63) →
      parseInt l.text = .ok v) := by
  refine ⟨?_, ?_, ?_⟩
  · intro s v h
    obtain ⟨l, hw, ht⟩ := parseInt_sound s (by rw [h]; simp)
    refine ⟨l, hw, ht, ?_⟩
    rw [← ht, parseInt_text l hw, expected] at h
    split at h
    · cases h
    · rename_i w hm
      split at h
      · cases h
      · cases h; exact hm
  · intro l hw
    rw [parseInt_text l hw, expected]
    split
    · rename_i hm; simp [hm]
    · rename_i hm
      rw [hm]
      split <;> simp
  · intro l hw v hm hn
    rw [parseInt_text l hw, expected, hm]
    exact if_neg hn

/-- Texts are unambiguous: a text has at most one meaning, so the specification is a function of
the text although it is phrased with literals. -/
theorem C01_meaning_unique (l l' : Literal) (h : l.WF) (h' : l'.WF) (ht : l.text = l'.text) :
    expected l = expected l' := by
  rw [← parseInt_text l h, ← parseInt_text l' h', ht]

/-- **C02 violated.** `"-9223372036854775808"` makes the parser negate INT64_MIN. -/
theorem C02_ub_violated :
    parseInt ("-9223372036854775808".toList.map Char.toNat) = .ub ∧
    parseInt ("-0x8000000000000000".toList.map Char.toNat) = .ub := by decide +kernel

/-- **C02 (partial).** The undefined negation happens for exactly the negative literals denoting
the most negative 64-bit integer; every other text is free of it. Missing for the full claim: these inputs. -/
theorem C02_ub_iff_partial (s : List Nat) :
    parseInt s = .ub ↔
      ∃ l : Literal, l.WF ∧ l.text = s ∧ l.negative = true ∧ l.meaning = some (-2^63) := by
  constructor
  · intro h
    obtain ⟨l, hw, ht⟩ := parseInt_sound s (by rw [h]; simp)
    refine ⟨l, hw, ht, ?_⟩
    rw [← ht, parseInt_text l hw, expected] at h
    split at h
    · cases h
    · rename_i w hm
      split at h
      · rename_i hh; rw [hh.2] at hm; exact ⟨hh.1, hm⟩
      · cases h
  · rintro ⟨l, hw, rfl, hn, hm⟩
    rw [parseInt_text l hw, expected, hm]
    simp [hn]

/-- Non-vacuity: literals with underscores, a prefix, and a sign. -/
example : parseInt ("0xFFFF_FFFF_FFFF_FFFF".toList.map Char.toNat) = .ok (-1) ∧
    parseInt ("-1_000".toList.map Char.toNat) = .ok (-1000) ∧
    parseInt ("9223372036854775808".toList.map Char.toNat) = .err ∧
    parseInt ("0b".toList.map Char.toNat) = .err := by decide +kernel

example : (⟨some true, .hex, true, "1F_0".toList.map Char.toNat⟩ : Literal).WF ∧
    (⟨some true, .hex, true, "1F_0".toList.map Char.toNat⟩ : Literal).meaning = some (-0x1f0) := by
  constructor
  · constructor <;> decide
  · decide +kernel

end Verif.Misc
