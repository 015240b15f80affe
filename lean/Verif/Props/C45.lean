import Verif.Lib.JsonParse
import Verif.Props.C44
import Verif.Props.C67
/-!
C45: JSON, modules/json.kos.

A value which is converted to JSON and back is the same value.  This does not hold: strings are not escaped, and escapes are not replaced.
It holds for values whose strings need no escapes, whose floating-point numbers have no more than 15 decimals, and which do not contain the least
integer or a property "map".  Texts which are not JSON are accepted in some cases.
-/
namespace Verif.Json
open Verif.Misc.Spec (FloatLit signBit expField magnitude)
open Spec

/-! ### Parsing -/

theorem lexes_end (b : List Nat) (ts : List Tok) (h : Lexes b [] ts) : tokenize (b.length + 1) b false = (ts, .eof) := by
  obtain ⟨k, hk, h⟩ := h
  simp only [List.length_nil, Nat.add_zero] at hk
  have := h (b.length - k + 1)
  rw [show b.length - k + 1 + k = b.length + 1 by omega] at this
  rw [this]
  have he : tokenize (b.length - k + 1) [] false = ([], .eof) := by rw [tokenize]; rfl
  rw [he]; simp

theorem shows_codes (i : Item) (t : List Nat) (h : Shows i t) : ∀ c ∈ t, c < 2097152 := by
  have hws : ∀ w, Ws w → ∀ c ∈ w, c < 2097152 := fun w hw c hc => by have := hw.1 c hc; omega
  have hwh : ∀ d, Whole d → ∀ c ∈ d, c < 2097152 := fun d hd c hc => by have := whole_ascii d hd c hc; omega
  have hde : ∀ l, Decimal l → ∀ c ∈ l.text, c < 2097152 := fun l hl c hc => by
    obtain ⟨h1, _, _, h2, _⟩ := decimal_parts l hl
    rw [h1] at hc
    rcases List.mem_append.1 hc with hc | hc
    · exact hwh _ hl.int c hc
    · have := h2 c hc; omega
  have hst : ∀ s, Str s → ∀ c ∈ s, c < 2097152 := fun s hs c hc => (hs.1 c hc).1
  induction h with
  | null => decide
  | true => decide
  | false => decide
  | int d h1 h2 => exact hwh d h1
  | negInt d h1 h2 => intro c hc; rcases List.mem_cons.1 hc with rfl | hc; omega; exact hwh d h1 c hc
  | flt l b h1 h2 => exact hde l h1
  | negFlt l b h1 h2 => intro c hc; rcases List.mem_cons.1 hc with rfl | hc; omega; exact hde l h1 c hc
  | str s h => intro c hc; simp at hc; rcases hc with rfl | hc | rfl; omega; exact hst s h c hc; omega
  | empty w h => intro c hc; simp at hc; rcases hc with rfl | hc | rfl; omega; exact hws w h c hc; omega
  | arr l t _ ih => intro c hc; simp at hc; rcases hc with rfl | hc | rfl; omega; exact ih c hc; omega
  | one v t a b _ ha hb ih =>
    intro c hc; simp at hc; rcases hc with hc | hc | hc
    exact hws a ha c hc; exact ih c hc; exact hws b hb c hc
  | more v t a b l u _ ha hb _ ih1 ih2 =>
    intro c hc; simp at hc; rcases hc with hc | hc | hc | rfl | hc
    exact hws a ha c hc; exact ih1 c hc; exact hws b hb c hc; omega; exact ih2 c hc
  | noMembers w h => intro c hc; simp at hc; rcases hc with rfl | hc | rfl; omega; exact hws w h c hc; omega
  | obj l o t _ hn ih => intro c hc; simp at hc; rcases hc with rfl | hc | rfl; omega; exact ih c hc; omega
  | oneMember k v t a b x d hk _ ha hb hx hd ih =>
    intro c hc; simp at hc; rcases hc with hc | rfl | hc | rfl | hc | rfl | hc | hc | hc
    exact hws a ha c hc; omega; exact hst k hk c hc; omega; exact hws b hb c hc; omega; exact hws x hx c hc; exact ih c hc; exact hws d hd c hc
  | moreMembers k v t a b x d l u hk _ ha hb hx hd _ ih1 ih2 =>
    intro c hc; simp at hc; rcases hc with hc | rfl | hc | rfl | hc | rfl | hc | hc | hc | rfl | hc
    exact hws a ha c hc; omega; exact hst k hk c hc; omega; exact hws b hb c hc; omega; exact hws x hx c hc; exact ih1 c hc
    exact hws d hd c hc; omega; exact ih2 c hc

theorem ws_codes (w : List Nat) (h : Ws w) : ∀ c ∈ w, c < 2097152 := fun c hc => by have := h.1 c hc; omega

theorem stop_end (b : List Nat) (hb : Ws b) : Stop b := by
  cases b with
  | nil => intro x hx; simp at hx
  | cons x b =>
    apply stop_cons
    have := hb.1 x (by simp)
    simp only [List.mem_cons]; omega

/-- What is parsed from a text of which the tokens are known. -/
theorem parse_tokens (t : List Nat) (ts rest : List Tok) (v : V) (hc : ∀ c ∈ t, c < 2097152) (h : Lexes (B t) [] (ts ++ rest)) (hv : ParsesVal v ts) :
    parse t = match rest with | [] => .ok v | _ => .throw := by
  have hcodes : Props.Encodable .e32 t := fun c hcm => ⟨by have := hc c hcm; show c < 4294967296; omega, hc c hcm⟩
  have htok : tokenize ((t.flatMap Utf8.utf8).length + 1) (t.flatMap Utf8.utf8) false = (ts ++ rest, .eof) := lexes_end _ _ h
  have hval := hv.2 .eof rest (2 * (ts ++ rest).length + 2) (by rw [List.length_append]; omega)
  rw [parse, Props.C05_encode _ _ hcodes]
  simp only [htok, hval]
  cases rest <;> rfl

/-- A text which shows a value, with whitespace around it, is parsed to the value. -/
theorem C45_parse (v : V) (t a b : List Nat) (h : Shows (.val v) t) (ha : Ws a) (hb : Ws b) : parse (a ++ t ++ b) = .ok v := by
  obtain ⟨hbeg, ts, h1, h2⟩ := shows_good _ _ h
  have hlex : Lexes (B (a ++ t ++ b)) [] (ts ++ []) := by
    have s1 := lexes_ws (B t ++ b) (solid_of t _ hbeg) _ a rfl ha
    have s2 := h1 b (stop_end b hb)
    have s3 := lexes_ws [] (fun x hx => by simp at hx) _ b rfl hb
    rw [List.append_nil] at s3
    have := s1.trans (s2.trans s3)
    rw [B_append, B_append, B_ws a ha, B_ws b hb]
    simpa using this
  refine parse_tokens _ ts [] v ?_ hlex h2
  intro c hc
  simp only [List.mem_append] at hc
  rcases hc with (hc | hc) | hc
  · exact ws_codes a ha c hc
  · exact shows_codes _ _ h c hc
  · exact ws_codes b hb c hc

/-- A value which is followed by another one is rejected. -/
theorem C45_two (v w : V) (t u a b c : List Nat) (h : Shows (.val v) t) (g : Shows (.val w) u) (ha : Ws a) (hb : Ws b) (hne : b ≠ []) (hc : Ws c) :
    parse (a ++ t ++ b ++ u ++ c) = .throw := by
  obtain ⟨hbeg, ts, h1, h2⟩ := shows_good _ _ h
  obtain ⟨gbeg, us, g1, g2⟩ := shows_good _ _ g
  have hstop : Stop (b ++ (B u ++ c)) := by
    cases b with
    | nil => exact absurd rfl hne
    | cons x b =>
      apply stop_cons
      have := hb.1 x (by simp)
      simp only [List.mem_cons]; omega
  have hlex : Lexes (B (a ++ t ++ b ++ u ++ c)) [] (ts ++ us) := by
    have s1 := lexes_ws (B t ++ (b ++ (B u ++ c))) (solid_of t _ hbeg) _ a rfl ha
    have s2 := h1 _ hstop
    have s3 := lexes_ws (B u ++ c) (solid_of u _ gbeg) _ b rfl hb
    have s4 := g1 c (stop_end c hc)
    have s5 := lexes_ws [] (fun x hx => by simp at hx) _ c rfl hc
    rw [List.append_nil] at s5
    have := s1.trans (s2.trans (s3.trans (s4.trans s5)))
    rw [B_append, B_append, B_append, B_append, B_ws a ha, B_ws b hb, B_ws c hc]
    simpa using this
  obtain ⟨⟨x, xs, rfl, _⟩, _⟩ := g2
  refine parse_tokens _ ts (x :: xs) v ?_ hlex h2
  intro y hy
  simp only [List.mem_append] at hy
  rcases hy with (((hy | hy) | hy) | hy) | hy
  · exact ws_codes a ha y hy
  · exact shows_codes _ _ h y hy
  · exact ws_codes b hb y hy
  · exact shows_codes _ _ g y hy
  · exact ws_codes c hc y hy
example : parse (ascii "1 2") = .throw := rfl

/-! ### Dumping -/

/-- Values which can be converted to JSON and back. -/
inductive Ok : V → Prop
  | void : Ok .void
  | bool (b) : Ok (.bool b)
  | int (i : Int) : -2 ^ 63 < i → i < 2 ^ 63 → Ok (.int i)
  | flt (b : Nat) : b < 2 ^ 64 → expField b < 2047 → magnitude b < 10 ^ (if signBit b then 29 else 30) →
      (128 ≤ magnitude b ∨ ∃ n : Nat, magnitude b * 10 ^ 15 = n) → Ok (.flt b)
  | str (s) : Str s → Ok (.str s)
  | arr (l) : (∀ v ∈ l, Ok v) → Ok (.arr l)
  | obj (l : List (List Nat × V)) : (∀ p ∈ l, Str p.1) → (∀ p ∈ l, p.1 ≠ ascii "map") → (l.map Prod.fst).Nodup → (∀ p ∈ l, Ok p.2) → Ok (.obj l)

/-- What `dump` gives: a text which shows the value, if it is not too long for a string. -/
def Dumps (v : V) (t : List Nat) : Prop := Shows (.val v) t ∧ dump v = if t.length ≤ 65535 then some t else none

theorem ws_nil : Ws [] := ⟨by simp, by simp⟩

theorem dumps_int (i : Int) (h1 : -2 ^ 63 < i) (h2 : i < 2 ^ 63) : ∃ t, Dumps (.int i) t := by
  have hlt : i.natAbs < 2 ^ 63 := by omega
  obtain ⟨m, hm⟩ : ∃ m, i.natAbs = m := ⟨_, rfl⟩
  rw [hm] at hlt
  obtain ⟨d1, d2, d3, _⟩ := Misc.dec_spec (m + 1) m (by omega)
  have hw : Whole (Misc.dec (m + 1) m) := ⟨d1, d2, Misc.dec_head (m + 1) m (by omega)⟩
  have hn : number (Misc.dec (m + 1) m) = m := d3
  have hl := whole_length _ hw (by rw [hn]; exact hlt)
  by_cases hs : i < 0
  · refine ⟨45 :: Misc.dec (m + 1) m, ?_, ?_⟩
    · have := Shows.negInt _ hw (by rw [hn]; exact hlt)
      rw [hn, show -(m : Int) = i by omega] at this
      exact this
    · rw [dump, intText, if_pos hs, hm, if_pos (by simp only [List.length_cons]; omega)]
  · refine ⟨Misc.dec (m + 1) m, ?_, ?_⟩
    · have := Shows.int _ hw (by rw [hn]; exact hlt)
      rw [hn, show (m : Int) = i by omega] at this
      exact this
    · rw [dump, intText, if_neg hs, hm, if_pos (by omega)]

theorem dumps_flt (b : Nat) (hb : b < 2 ^ 64) (hf : expField b < 2047) (h : magnitude b < 10 ^ (if signBit b then 29 else 30))
    (hx : 128 ≤ magnitude b ∨ ∃ n : Nat, magnitude b * 10 ^ 15 = n) : ∃ t, Dumps (.flt b) t := by
  have hlen := Misc.C66_fits 32 b (by omega)
  obtain ⟨l, l1, l2, l3, l4, l5, l6, l7, l8, l9, l10, l11⟩ := Misc.printFloat_text b hf h
  obtain ⟨sg, i, f, e⟩ := l
  simp only at l4 l5 l7 l9 l10 l11
  subst l5
  have h30 : magnitude b < 10 ^ 30 := lt_of_lt_of_le h (pow_le_pow_right₀ (by norm_num) (by split <;> omega))
  obtain ⟨x, hxd⟩ : ∃ x, b % 2 ^ 63 = x := ⟨_, rfl⟩
  have x1 : x < 2 ^ 63 := by rw [← hxd]; exact Nat.mod_lt _ (by norm_num)
  have x2 : expField x = expField b := by unfold expField; omega
  have x3 : Misc.Spec.fracField x = Misc.Spec.fracField b := by unfold Misc.Spec.fracField; omega
  have x4 : magnitude x = magnitude b := by unfold magnitude Misc.Spec.ulp; rw [x2, x3]
  have x5 : signBit x = false := by unfold signBit; exact decide_eq_false (by omega)
  have hwf : (⟨none, i, f, none⟩ : FloatLit).WF := ⟨l1.int, l1.frac, l1.exp⟩
  have hback := Misc.literal_back b hf h30 hx ⟨none, i, f, none⟩ hwf l4 rfl l6 x (by omega) x5 x4
  have hpd : Misc.parseDouble (⟨none, i, f, none⟩ : FloatLit).text = .ok x := by
    rw [Misc.C49_numeric _ hwf (.inl l4)] at hback
    cases hp : Misc.parseDouble (⟨none, i, f, none⟩ : FloatLit).text with
    | ok y => rw [hp] at hback; simp only [Misc.NumRes.ok.injEq, Misc.Numeric.float.injEq] at hback; rw [hback]
    | err => rw [hp] at hback; cases hback
    | ub => rw [hp] at hback; cases hback
  have htext : (⟨sg, i, f, none⟩ : FloatLit).text = (if signBit b then [45] else []) ++ (⟨none, i, f, none⟩ : FloatLit).text := by
    rw [l11]
    cases signBit b <;> rfl
  have hsize : (⟨none, i, f, none⟩ : FloatLit).text.length ≤ 65535 := by
    rw [← l2, htext, List.length_append] at hlen
    omega
  have hdec : Decimal ⟨none, i, f, none⟩ := ⟨rfl, ⟨l1.int.1, l9, l7⟩, l10, (fun u e he => nomatch he), .inl l4, hsize⟩
  refine ⟨Misc.printFloat 32 b, ?_, ?_⟩
  · rw [← l2, htext]
    cases hs : signBit b with
    | false =>
      have : b = x := by
        unfold signBit at hs
        have := of_decide_eq_false hs
        omega
      rw [this]
      exact .flt _ x hdec hpd
    | true =>
      have : b = x + 2 ^ 63 := by
        unfold signBit at hs
        have := of_decide_eq_true hs
        omega
      rw [this]
      exact .negFlt _ x hdec hpd
  · rw [dump, if_pos (by omega)]

theorem str_length (s : List Nat) (h : Str s) : s.length + 2 < 65535 := by
  have := utf8_length s
  have := h.2
  omega

theorem dumpStr_ok (s : List Nat) (h : Str s) : dumpStr s = some (34 :: s ++ [34]) := by
  have := str_length s h
  rw [dumpStr, Text.concat, if_pos (by simp; omega)]
  simp

theorem concat_brackets (x y : Nat) (t : List Nat) : Text.concat [[x], t, [y]] = if (x :: t ++ [y]).length ≤ 65535 then some (x :: t ++ [y]) else none := by
  rw [Text.concat]; simp

theorem glue_cons (x : List Nat) (l : List (List Nat)) (h : l ≠ []) : Text.glue [44] (x :: l) = x ++ 44 :: Text.glue [44] l := by
  cases l with
  | nil => exact absurd rfl h
  | cons y l => simp [Text.glue]

theorem glue_long (l : List (List Nat)) : ∀ t ∈ l, t.length ≤ (Text.glue [44] l).length := by
  induction l with
  | nil => simp
  | cons x l ih =>
    by_cases hl : l = []
    · subst hl; simp [Text.glue]
    · intro t ht
      rw [glue_cons x l hl, List.length_append, List.length_cons]
      rcases List.mem_cons.1 ht with rfl | ht
      · omega
      · have := ih t ht; omega

/-- Elements are put together. -/
theorem joined (x y : Nat) (ts : List (List Nat)) (d : Option (List (List Nat)))
    (hd : d = if ∀ t ∈ ts, t.length ≤ 65535 then some ts else none) :
    brackets x y d = if (x :: Text.glue [44] ts ++ [y]).length ≤ 65535 then some (x :: Text.glue [44] ts ++ [y]) else none := by
  have hg := glue_long ts
  by_cases hall : ∀ t ∈ ts, t.length ≤ 65535
  · rw [hd, if_pos hall]
    simp only [brackets, Text.C44_join]
    by_cases hl : (Text.glue [44] ts).length ≤ 65535
    · rw [if_pos hl]
      exact concat_brackets x y _
    · rw [if_neg hl, if_neg]
      simp only [List.cons_append, List.length_cons, List.length_append]; omega
  · rw [hd, if_neg hall, brackets, if_neg]
    intro hl
    apply hall
    intro t ht
    have := hg t ht
    simp only [List.cons_append, List.length_cons, List.length_append] at hl
    omega

theorem dumpAll_ok (l : List V) (h : ∀ v ∈ l, ∃ t, Dumps v t) : ∃ ts, (l = [] ∧ ts = [] ∨ l ≠ [] ∧ ts ≠ [] ∧ Shows (.elems l) (Text.glue [44] ts)) ∧
    dumpAll l = if ∀ t ∈ ts, t.length ≤ 65535 then some ts else none := by
  induction l with
  | nil => exact ⟨[], .inl ⟨rfl, rfl⟩, by simp [dumpAll]⟩
  | cons v l ih =>
    obtain ⟨t, h1, h2⟩ := h v (by simp)
    obtain ⟨ts, i1, i2⟩ := ih (fun v hv => h v (by simp [hv]))
    refine ⟨t :: ts, .inr ⟨by simp, by simp, ?_⟩, ?_⟩
    · rcases i1 with ⟨rfl, rfl⟩ | ⟨_, hne, i1⟩
      · have := Shows.one v t [] [] h1 ws_nil ws_nil
        simpa [Text.glue] using this
      · have := Shows.more v t [] [] l _ h1 ws_nil ws_nil i1
        rw [glue_cons t ts hne]
        simpa using this
    · rw [dumpAll, h2, i2]
      by_cases ht : t.length ≤ 65535
      · by_cases hts : ∀ t ∈ ts, t.length ≤ 65535
        · simp only [if_pos ht, if_pos hts]
          rw [if_pos (by simpa using ⟨ht, hts⟩)]
        · simp only [if_pos ht, if_neg hts]
          rw [if_neg (by simpa [ht] using hts)]
      · simp only [if_neg ht]
        rw [if_neg (by simp [ht])]

theorem dumpProps_ok (l : List (List Nat × V)) (hk : ∀ p ∈ l, Str p.1) (h : ∀ p ∈ l, ∃ t, Dumps p.2 t) :
    ∃ ts, (l = [] ∧ ts = [] ∨ l ≠ [] ∧ ts ≠ [] ∧ Shows (.members l) (Text.glue [44] ts)) ∧
    dumpProps l = if ∀ t ∈ ts, t.length ≤ 65535 then some ts else none := by
  induction l with
  | nil => exact ⟨[], .inl ⟨rfl, rfl⟩, by simp [dumpProps]⟩
  | cons p l ih =>
    obtain ⟨k, v⟩ := p
    obtain ⟨t, h1, h2⟩ := h (k, v) (by simp)
    have hkk := hk (k, v) (by simp)
    obtain ⟨ts, i1, i2⟩ := ih (fun v hv => hk v (by simp [hv])) (fun v hv => h v (by simp [hv]))
    refine ⟨((34 :: k ++ [34]) ++ 58 :: t) :: ts, .inr ⟨by simp, by simp, ?_⟩, ?_⟩
    · rcases i1 with ⟨rfl, rfl⟩ | ⟨_, hne, i1⟩
      · have := Shows.oneMember k v t [] [] [] [] hkk h1 ws_nil ws_nil ws_nil ws_nil
        simpa [Text.glue] using this
      · have := Shows.moreMembers k v t [] [] [] [] l _ hkk h1 ws_nil ws_nil ws_nil ws_nil i1
        rw [glue_cons _ ts hne]
        simpa using this
    · rw [dumpProps, dumpStr_ok k hkk, h2, i2]
      have hcat : Text.concat [34 :: k ++ [34], [58], t] =
          if ((34 :: k ++ [34]) ++ 58 :: t).length ≤ 65535 then some ((34 :: k ++ [34]) ++ 58 :: t) else none := by
        rw [Text.concat]; simp
      by_cases ht : t.length ≤ 65535
      · simp only [if_pos ht, hcat]
        by_cases htk : ((34 :: k ++ [34]) ++ 58 :: t).length ≤ 65535
        · rw [if_pos htk]
          by_cases hts : ∀ t ∈ ts, t.length ≤ 65535
          · simp only [if_pos hts]
            rw [if_pos]
            intro u hu
            rcases List.mem_cons.1 hu with rfl | hu
            · exact htk
            · exact hts u hu
          · simp only [if_neg hts]
            rw [if_neg]
            intro hh
            exact hts (fun u hu => hh u (by simp [hu]))
        · simp only [if_neg htk]
          rw [if_neg]
          intro hh
          exact htk (hh _ (by simp))
      · simp only [if_neg ht]
        rw [if_neg]
        intro hh
        have := hh _ List.mem_cons_self
        simp only [List.length_append, List.length_cons] at this
        omega

/-- What `dump` gives. -/
theorem C45_dump (v : V) (h : Ok v) : ∃ t, Shows (.val v) t ∧ dump v = if t.length ≤ 65535 then some t else none := by
  show ∃ t, Dumps v t
  induction h with
  | void => exact ⟨_, .null, rfl⟩
  | bool b => cases b; exact ⟨_, .false, rfl⟩; exact ⟨_, .true, rfl⟩
  | int i h1 h2 => exact dumps_int i h1 h2
  | flt b h1 h2 h3 h4 => exact dumps_flt b h1 h2 h3 h4
  | str s h =>
    refine ⟨_, .str s h, ?_⟩
    have := str_length s h
    rw [dump, dumpStr_ok s h, if_pos (by simp; omega)]
  | arr l _ ih =>
    obtain ⟨ts, h1, h2⟩ := dumpAll_ok l ih
    refine ⟨91 :: Text.glue [44] ts ++ [93], ?_, ?_⟩
    · rcases h1 with ⟨rfl, rfl⟩ | ⟨_, _, h1⟩
      · exact .empty [] ws_nil
      · exact .arr l _ h1
    · rw [dump]
      exact joined 91 93 ts _ h2
  | obj l hk hm hn _ ih =>
    obtain ⟨ts, h1, h2⟩ := dumpProps_ok l hk ih
    refine ⟨123 :: Text.glue [44] ts ++ [125], ?_, ?_⟩
    · rcases h1 with ⟨rfl, rfl⟩ | ⟨_, _, h1⟩
      · exact .noMembers [] ws_nil
      · exact .obj l l _ h1 (merged_self l hn)
    · rw [dump, if_neg]
      · exact joined 123 125 ts _ h2
      · simp only [List.any_eq_true, beq_iff_eq, not_exists, not_and]
        intro p hp he
        exact hm p hp he

/-- To JSON and back. -/
theorem C45_partial (v : V) (h : Ok v) (t : List Nat) (ht : dump v = some t) : parse t = .ok v := by
  obtain ⟨u, h1, h2⟩ := C45_dump v h
  rw [h2] at ht
  split at ht
  · cases ht
    have := C45_parse v t [] [] h1 ws_nil ws_nil
    simpa using this
  · cases ht

/-- `C45_partial` is not about nothing. -/
def sample : V :=
  .obj [(ascii "a", .arr [.int (-5), .flt 0xBFF8000000000000, .void, .bool true]), (ascii "é", .obj []), ([], .str (ascii "x\ty"))]
example : (dump sample).map (fun t => t == ascii "{\"a\":[-5,-1.5,null,true],\"é\":{},\"\":\"x\ty\"}") = some true := by decide +kernel
example : Ok sample := by
  have hm : magnitude 0xBFF8000000000000 = 3 / 2 := by
    have h := (Misc.magnitude_normal 0xBFF8000000000000 (2 ^ 52 + 2 ^ 51) 1023 (-52) (by decide +kernel) (by decide +kernel) (by norm_num) (by norm_num) (by norm_num)).1
    rw [h, show (2 : ℚ) ^ (-52 : Int) = 1 / 2 ^ 52 by norm_num]; norm_num
  have hs : signBit 0xBFF8000000000000 = true := by decide +kernel
  have str : ∀ s : List Nat, s ∈ [ascii "a", ascii "é", [], ascii "x\ty"] → Str s := by
    intro s hs
    simp only [List.mem_cons, List.not_mem_nil, or_false] at hs
    rcases hs with rfl | rfl | rfl | rfl <;> exact ⟨by decide, by decide⟩
  refine .obj _ ?_ (by decide) (by decide) ?_
  · intro p hp
    simp only [List.mem_cons, List.not_mem_nil, or_false] at hp
    rcases hp with rfl | rfl | rfl <;> exact str _ (by simp)
  · intro p hp
    simp only [List.mem_cons, List.not_mem_nil, or_false] at hp
    rcases hp with rfl | rfl | rfl
    · refine .arr _ ?_
      intro v hv
      simp only [List.mem_cons, List.not_mem_nil, or_false] at hv
      rcases hv with rfl | rfl | rfl | rfl
      · exact .int _ (by norm_num) (by norm_num)
      · refine .flt _ (by norm_num) (by decide +kernel) (by rw [hm, hs]; norm_num) (.inr ⟨1500000000000000, by rw [hm]; norm_num⟩)
      · exact .void
      · exact .bool _
    · exact .obj _ (by simp) (by simp) (by simp) (by simp)
    · exact .str _ (str _ (by simp))

/-- A text of JSON with whitespace and an exponent. -/
example : Shows (.elems [.int 1, .flt 0x4059000000000000]) (ascii " 1 ,\n1e2") := by
  have h1 := Shows.int [49] ⟨by simp, by simp, by simp⟩ (by decide +kernel)
  have h2 := Shows.flt ⟨none, [49], none, some (false, ⟨none, .dec, false, [50]⟩)⟩ 0x4059000000000000
    ⟨rfl, ⟨by simp, by simp, by simp⟩, by simp, by rintro u e h; cases h; exact ⟨rfl, by simp, by simp, by simp⟩, by simp, by decide⟩ (by decide +kernel)
  exact Shows.more _ _ [32] [32] _ _ h1 ⟨by simp, by simp⟩ ⟨by simp, by simp⟩ (Shows.one _ _ [10] [] h2 ⟨by simp, by simp⟩ ws_nil)

/-! ### What does not hold -/

/-- A string with quotes comes back as two strings, one with ends of lines as a number, the least integer and an object with the property "map"
not at all; a backslash and what follows it are not replaced. -/
theorem C45_violated :
    (dump (.arr [.str (ascii "x\",\"y")])).map parse = some (.ok (.arr [.str (ascii "x"), .str (ascii "y")])) ∧
    (dump (.arr [.str (ascii "\n1]\n")])).map parse = some (.ok (.arr [.int 1])) ∧
    (dump (.int (-9223372036854775808))).map parse = some .throw ∧
    dump (.obj [(ascii "map", .int 1)]) = none ∧
    parse (ascii "\"a\\nb\"") = .ok (.str (ascii "a\\nb")) := by
  refine ⟨?_, ?_, ?_, ?_, ?_⟩ <;> rfl

/-- Texts which are not JSON, and are accepted. -/
theorem C45_lenient_violated :
    parse (ascii "[,,1]") = .ok (.arr [.int 1]) ∧
    parse (ascii "[1,]") = .ok (.arr [.int 1]) ∧
    parse (ascii "007") = .ok (.int 7) ∧
    parse (ascii "0x10") = .ok (.int 16) ∧
    parse (ascii "[1e05]") = .ok (.arr [.int 5]) ∧
    parse (ascii "1 \"abc") = .ok (.int 1) := by
  refine ⟨?_, ?_, ?_, ?_, ?_, ?_⟩ <;> rfl

end Verif.Json
