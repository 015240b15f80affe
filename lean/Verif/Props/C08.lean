import Verif.Quote.Lemmas
import Verif.Lexer.TokenLemmas
import Verif.Compiler.StrLit
import Verif.Props.C05
import Verif.Props.C06
/-
C08: the text to which a string is quoted when a container is printed, taken as a string literal, denotes that string.
-/
namespace Verif.Props
open Verif.Utf8 Verif.Quote Verif.Lexer Verif.Compiler

namespace C08.Spec
/-- The source text `text` is exactly one string literal and it denotes the string `codes`. -/
def Denotes (text codes : List Nat) : Prop :=
  nextToken text = .ok (.string, []) ∧
  ∀ w al, ∃ k, newString (tokenStr ⟨false, text⟩).2 w al (tokenStr ⟨false, text⟩).1 = .ok (k, codes)

/-- Elements which a string of the kind can have. -/
def Valid (k : Kind) (codes : List Nat) : Prop := codes.length < 0xFFFF ∧ ∀ c ∈ codes, c < k.bound
end C08.Spec
open C08.Spec

theorem hexDigit_hex (d : Nat) (h : d < 16) : charIsHex (hexDigit d) = true ∧ hexDigit d < 128 ∧ hexDigit d ≠ 13 ∧
    hexDigit d ≠ 125 ∧ hexDigit d ≠ 123 := by
  have : ∀ d : Fin 16, charIsHex (hexDigit d.val) = true ∧ hexDigit d.val < 128 ∧ hexDigit d.val ≠ 13 ∧
    hexDigit d.val ≠ 125 ∧ hexDigit d.val ≠ 123 := by decide +kernel
  exact this ⟨d, h⟩

theorem hexBraces_digit (f n d : Nat) (h : d < 16) (s : List Nat) :
    hexBraces (f + 1) n (hexDigit d :: s) = hexBraces f (n + 1) s := by
  obtain ⟨h1, h2, h3, h4, _⟩ := hexDigit_hex d h
  rw [hexBraces, prefetch_ascii _ _ h2 h3]
  simp only
  rw [if_neg h4, h1]
  rfl

theorem hexBraces_end (f n : Nat) (s : List Nat) : hexBraces (f + 1) n (125 :: s) = .ok (n, s) := by
  rw [hexBraces, prefetch_ascii 125 s (by omega) (by omega)]
  simp

/-- The lexer skips an escape written by `vector_append_str`. -/
theorem collectEscape_quote (c : Nat) (h : c < 2097152) (hq : ¬ (32 ≤ c ∧ c < 127 ∧ c ≠ 34 ∧ c ≠ 92)) (rest : List Nat) :
    ∃ s, quoteChar c ++ rest = 92 :: s ∧ collectEscape s = .ok (rest, false) := by
  have hx : escMap 120 = .hex := by decide
  have two : ∀ a b, a < 16 → b < 16 → collectEscape (120 :: hexDigit a :: hexDigit b :: rest) = .ok (rest, false) := by
    intro a b ha hb
    obtain ⟨a1, a2, a3, a4, a5⟩ := hexDigit_hex a ha
    obtain ⟨b1, b2, b3, b4, b5⟩ := hexDigit_hex b hb
    rw [collectEscape, prefetch_ascii 120 _ (by omega) (by omega)]
    simp only [hx]
    rw [prefetch_ascii _ _ a2 a3]
    simp only
    rw [if_neg a5, if_pos a1, prefetch_ascii _ _ b2 b3]
    simp only
    rw [b1]; rfl
  have brace : ∀ s n f, f = s.length → hexBraces (f + 1) 0 s = .ok (n, rest) → 0 < n → n ≤ 6 →
      collectEscape (120 :: 123 :: s) = .ok (rest, false) := by
    intro s n f hf hs h0 h6
    subst hf
    rw [collectEscape, prefetch_ascii 120 _ (by omega) (by omega)]
    simp only [hx]
    rw [prefetch_ascii 123 _ (by omega) (by omega)]
    simp only
    rw [if_pos trivial, hs]
    simp only
    rw [if_neg (by omega), if_neg (by omega)]
  by_cases h1 : c = 34 ∨ c = 92
  · rw [quote_bs c h1]
    refine ⟨c :: rest, rfl, ?_⟩
    rcases h1 with rfl | rfl
    · rw [collectEscape, prefetch_ascii 34 _ (by omega) (by omega)]; rfl
    · rw [collectEscape, prefetch_ascii 92 _ (by omega) (by omega)]; rfl
  · by_cases h2 : c < 256
    · rw [quote_hex c h2 (by omega)]
      exact ⟨_, rfl, two _ _ (by omega) (by omega)⟩
    · by_cases h3 : c < 0x800
      · rw [quote_3 c (by omega) h3]
        simp only [List.cons_append, List.nil_append]
        refine ⟨_, rfl, ?_⟩
        refine brace _ 3 (rest.length + 4) rfl ?_ (by omega) (by omega)
        rw [hexBraces_digit _ _ _ (by omega), hexBraces_digit _ _ _ (by omega), hexBraces_digit _ _ _ (by omega), hexBraces_end]
      · by_cases h4 : c < 0x10000
        · rw [quote_4 c (by omega) h4]
          simp only [List.cons_append, List.nil_append]
          refine ⟨_, rfl, ?_⟩
          refine brace _ 4 (rest.length + 5) rfl ?_ (by omega) (by omega)
          rw [hexBraces_digit _ _ _ (by omega), hexBraces_digit _ _ _ (by omega), hexBraces_digit _ _ _ (by omega),
            hexBraces_digit _ _ _ (by omega), hexBraces_end]
        · rw [quote_5 c (by omega)]
          simp only [List.cons_append, List.nil_append]
          refine ⟨_, rfl, ?_⟩
          refine brace _ 5 (rest.length + 6) rfl ?_ (by omega) (by omega)
          rw [hexBraces_digit _ _ _ (by omega), hexBraces_digit _ _ _ (by omega), hexBraces_digit _ _ _ (by omega),
            hexBraces_digit _ _ _ (by omega), hexBraces_digit _ _ _ (by omega), hexBraces_end]

theorem collectString_char (f c : Nat) (h : c < 2097152) (rest : List Nat) :
    collectString (f + 1) (quoteChar c ++ rest) = collectString f rest := by
  by_cases hq : 32 ≤ c ∧ c < 127 ∧ c ≠ 34 ∧ c ≠ 92
  · rw [quote_plain c hq, List.cons_append, List.nil_append, collectString, prefetch_ascii c rest (by omega) (by omega)]
    obtain ⟨_, _, l1, l2, l3, l4, l5⟩ := lexemType_ascii c (by omega)
    simp only
    rw [if_neg l1, if_neg l2, if_neg (by rw [l4]; omega), if_neg (by rw [l5]; omega), if_neg (by rw [l3]; omega)]
  · obtain ⟨s, e, hs⟩ := collectEscape_quote c h hq rest
    rw [e, collectString, prefetch_ascii 92 s (by omega) (by omega), show lexemType 92 = .backslash by decide]
    simp only
    rw [if_neg (by decide), if_neg (by decide), if_neg (by decide), if_pos trivial, hs]
    rfl

theorem collectString_all (codes : List Nat) (h : ∀ c ∈ codes, c < 2097152) (rest : List Nat) : ∀ f, codes.length < f →
    collectString f (codes.flatMap quoteChar ++ 34 :: rest) = .ok rest := by
  induction codes with
  | nil =>
    intro f hf
    obtain ⟨f, rfl⟩ : ∃ k, f = k + 1 := ⟨f - 1, by simp at hf; omega⟩
    show collectString (f + 1) (34 :: rest) = _
    rw [collectString, prefetch_ascii 34 rest (by omega) (by omega)]
    rfl
  | cons c cs ih =>
    intro f hf
    obtain ⟨f, rfl⟩ : ∃ k, f = k + 1 := ⟨f - 1, by simp at hf; omega⟩
    rw [List.flatMap_cons, List.append_assoc, collectString_char f c (h c (by simp))]
    exact ih (fun x hx => h x (by simp [hx])) f (by simp at hf; omega)

theorem quote_length (codes : List Nat) : codes.length ≤ (codes.flatMap quoteChar).length := by
  induction codes with
  | nil => simp
  | cons c cs ih =>
    have := quoteChar_pos c
    simp only [List.flatMap_cons, List.length_append, List.length_cons]; omega

/-- The quoting never fails its assertions, never reads what it has overwritten and writes every character according to
`quoteChar`, for every string whose elements are below 0x200000. -/
theorem C08_quote_text (k : Kind) (codes : List Nat) (hv : Valid k codes) (h : ∀ c ∈ codes, c < 2097152) :
    quote k codes = .ok (34 :: (codes.flatMap quoteChar ++ [34])) := by
  have hs : stringToUtf8 k codes = some (codes.flatMap utf8, (codes.flatMap utf8).length) := C05_encode k codes (fun c hc => ⟨hv.2 c hc, h c hc⟩)
  unfold quote
  rw [hs]
  simp only
  by_cases h0 : extraSum (codes.flatMap utf8) = 0
  · rw [if_neg (by simp [h0])]
    simp only
    rw [(extra_nonneg codes h).2 h0]; rfl
  · rw [if_pos h0, loop_all codes.length codes [] rfl h]
    simp only [List.append_nil]; rfl

theorem quoted_denotes (codes : List Nat) (h : ∀ c ∈ codes, c < 0x100000) (hl : codes.length < 0xFFFF)
    (hlen : (codes.flatMap quoteChar).length + 2 ≤ 0xFFFF) : Denotes (34 :: (codes.flatMap quoteChar ++ [34])) codes := by
  constructor
  · have h' : ∀ c ∈ codes, c < 2097152 := fun c hc => by have := h c hc; omega
    have hc := collectString_all codes h' [] ((codes.flatMap quoteChar ++ [34]).length + 1)
      (by have := quote_length codes; simp only [List.length_append, List.length_singleton]; omega)
    have ht : tokenAny (34 :: (codes.flatMap quoteChar ++ [34])) = .ok (.string, []) := by
      simp only [tokenAny]
      rw [prefetch_ascii 34 _ (by omega) (by omega)]
      simp only [show lexemType 34 = .string by decide]
      rw [hc]
      have hlast : (34 :: (codes.flatMap quoteChar ++ [34])).getLast? = some 34 := by
        rw [← List.cons_append, List.getLast?_append]; rfl
      simp only [mapRes, stringType, between, List.length_nil, Nat.sub_zero, List.take_length, hlast]
      rw [if_neg (by decide)]
    simp only [nextToken, ht, checkLen]
    rw [if_neg]
    simp only [List.length_cons, List.length_append, List.length_nil]; omega
  · intro w al
    have hbody : tokenStr ⟨false, 34 :: (codes.flatMap quoteChar ++ [34])⟩ = (codes.flatMap quoteChar, true) := by
      simp [tokenStr]
    rw [hbody]
    simp only
    by_cases he : codes = []
    · subst he; exact ⟨.ascii, rfl⟩
    have hb : ∀ b ∈ codes.flatMap quoteChar, b < 256 := by
      intro b hb
      obtain ⟨c, _, h2⟩ := List.mem_flatMap.mp hb
      have := quoteChar_ascii c b h2; omega
    obtain ⟨m, hs, _, hm⟩ := scan_all codes ((codes.flatMap quoteChar).length + 1) 0 0 h (Nat.lt_succ_self _)
    rw [← getLen_eq true w al _ hb, Nat.zero_add] at hs
    have hs' := hs
    rw [getLen_eq true w al _ hb] at hs'
    have hmb := slowLoop_bound true _ _ _ _ _ _ hs' (by omega)
    obtain ⟨kw, _⟩ := kind_width m hmb
    have hd := decode_all (kindFromMax m).width codes ((codes.flatMap quoteChar).length + 1)
      (fun c hc => ⟨h c hc, by
        by_cases h8 : 0x80 ≤ c
        · have := hm c hc h8; omega
        · omega⟩) (Nat.lt_succ_self _)
    refine ⟨kindFromMax m, ?_⟩
    have hle := quote_length codes
    unfold newString
    rw [if_neg (by omega), if_neg (by
      intro h0; rw [h0] at hle; simp at hle; exact he hle), hs]
    simp only
    rw [if_pos hl]
    unfold decode
    rw [hd]
    simp only
    have hfit : codes.length * (kindFromMax m).elemBytes ≤ allocBytes (kindFromMax m) (codes.flatMap quoteChar).length := by
      unfold allocBytes
      cases kindFromMax m <;> simp only [Kind.flag, Kind.elemBytes, Nat.shiftLeft_eq] <;> omega
    rw [if_pos hfit, List.take_length]

/-- Missing from the full claim (`C08_full`): strings with an element of U+100000 or more, see `C08_quote_violated`, and
strings whose quoted text is longer than the 65535 bytes allowed for a token.
Every other string reads back as itself. -/
theorem C08_reads_back_partial (k : Kind) (codes : List Nat) (hv : Valid k codes) (h : ∀ c ∈ codes, c < 0x100000)
    (text : List Nat) (hq : quote k codes = .ok text) (hlen : text.length ≤ 0xFFFF) : Denotes text codes := by
  rw [C08_quote_text k codes hv (fun c hc => by have := h c hc; omega)] at hq
  injection hq with hq
  subst hq
  exact quoted_denotes codes h hv.1 (by simp only [List.length_cons, List.length_append, List.length_nil] at hlen; omega)

/-- The full claim. -/
def C08_full : Prop := ∀ (k : Kind) (codes text : List Nat), Valid k codes → quote k codes = .ok text →
  text.length ≤ 0xFFFF → Denotes text codes

/-- Only five hexadecimal digits are written for four-byte characters: U+100000 is printed as `"\x{00000}"`. -/
theorem C08_quote_violated : ¬ C08_full := by
  intro h
  have h1 := h .e32 [0x100000] [34, 92, 120, 123, 48, 48, 48, 48, 48, 125, 34] ⟨by decide, by decide⟩ (by decide +kernel)
    (by decide)
  obtain ⟨k, hk⟩ := h1.2 8 (fun _ => false)
  have h2 : newString (tokenStr ⟨false, [34, 92, 120, 123, 48, 48, 48, 48, 48, 125, 34]⟩).2 8 (fun _ => false)
    (tokenStr ⟨false, [34, 92, 120, 123, 48, 48, 48, 48, 48, 125, 34]⟩).1 = .ok (.ascii, [0]) := by decide +kernel
  rw [h2] at hk
  simp at hk

/-! Example: `a"é€😀` is quoted as `"a\"\xe9\x{20ac}\x{1f600}"`. -/
example : quote .e32 [97, 34, 0xE9, 0x20AC, 0x1F600] =
    .ok (34 :: ([97, 92, 34] ++ [92, 120, 101, 57] ++ [92, 120, 123, 50, 48, 97, 99, 125] ++
      [92, 120, 123, 49, 102, 54, 48, 48, 125] ++ [34])) := by decide +kernel
example : nextToken (34 :: ([97, 92, 34] ++ [92, 120, 101, 57] ++ [34])) = .ok (.string, []) := by decide +kernel

end Verif.Props
