import Verif.Lib.JsonTok
/-
What is parsed from a JSON text which shows a value.
-/
namespace Verif.Json
open Verif.Misc (Plain digs)
open Verif.Misc.Spec (Literal FloatLit positional)
open Verif.Lexer Spec

/-- The bytes of a text. -/
def B (t : List Nat) : List Nat := t.flatMap Utf8.utf8

theorem B_append (s t : List Nat) : B (s ++ t) = B s ++ B t := by simp [B]
theorem B_ascii (t : List Nat) (h : ∀ c ∈ t, c < 128) : B t = t := Utf8.flatMap_ascii t h
theorem B_cons (c : Nat) (t : List Nat) (h : c < 128) : B (c :: t) = c :: B t := by
  have := B_append [c] t
  rw [B_ascii [c] (by simpa using h)] at this
  exact this

theorem B_ws (w : List Nat) (h : Ws w) : B w = w := B_ascii w (fun c hc => by have := h.1 c hc; omega)

theorem stop_cons (c : Nat) (r : List Nat) (h : c ∈ [9, 10, 13, 32, 44, 58, 93, 125]) : Stop (c :: r) := by
  intro x hx
  rw [List.head?_cons, Option.some.injEq] at hx
  exact hx ▸ h

theorem stop_ws (w : List Nat) (c : Nat) (r : List Nat) (h : Ws w) (hc : c ∈ [9, 10, 13, 32, 44, 58, 93, 125]) : Stop (w ++ c :: r) := by
  cases w with
  | nil => exact stop_cons c r hc
  | cons x w =>
    apply stop_cons
    have := h.1 x (by simp)
    simp only [List.mem_cons]
    omega

/-- The first character is not whitespace. -/
def Begins (t : List Nat) : Prop := ∃ x s, t = x :: s ∧ x < 128 ∧ x ≠ 9 ∧ x ≠ 10 ∧ x ≠ 11 ∧ x ≠ 12 ∧ x ≠ 13 ∧ x ≠ 32

theorem begins_cons (x : Nat) (s : List Nat) (h : 33 ≤ x) (h2 : x < 128) : Begins (x :: s) := ⟨x, s, rfl, h2, by omega⟩

theorem solid_of (t r : List Nat) (h : Begins t) : Solid (B t ++ r) := by
  obtain ⟨x, s, rfl, h1, h2⟩ := h
  rw [B_cons x s h1]
  intro y hy
  rw [List.cons_append, List.head?_cons, Option.some.injEq] at hy
  exact hy ▸ ⟨h1, h2⟩

theorem solid_cons (c : Nat) (r : List Nat) (h : 33 ≤ c) (h2 : c < 128) : Solid (c :: r) := by
  intro y hy
  rw [List.head?_cons, Option.some.injEq] at hy
  subst hy
  exact ⟨h2, by omega⟩

/-- Tokens from which the value is parsed. -/
def ParsesVal (v : V) (ts : List Tok) : Prop :=
  (∃ x xs, ts = x :: xs ∧ x ≠ .sep 93 ∧ x ≠ .sep 44) ∧
  ∀ z rest n, 2 * ts.length ≤ n → parseValue z n (ts ++ rest) = .ok (v, rest)

theorem parses_one (v : V) : ParsesVal v [.val v] := by
  refine ⟨⟨_, _, rfl, by simp, by simp⟩, ?_⟩
  intro z rest n hn
  obtain ⟨n, rfl⟩ : ∃ k, n = k + 1 := ⟨n - 1, by simp at hn; omega⟩
  rfl

/-- Members are put into an object one by one. -/
def putAll (o l : List (List Nat × V)) : List (List Nat × V) := l.foldl (fun o p => setProp o p.1 p.2) o

def Good : Item → List Nat → Prop
  | .val v, t => Begins t ∧ ∃ ts, (∀ r, Stop r → Lexes (B t ++ r) r ts) ∧ ParsesVal v ts
  | .elems l, t => ∃ ts, (∀ r, Lexes (B t ++ 93 :: r) (93 :: r) ts) ∧
      ∀ z rest acc n, 2 * ts.length + 1 ≤ n → parseArray z n acc (ts ++ .sep 93 :: rest) = .ok (acc ++ l, rest)
  | .members l, t => ∃ ts, (∀ r, Lexes (B t ++ 125 :: r) (125 :: r) ts) ∧
      ∀ z rest acc n, 2 * ts.length + 1 ≤ n → parseObject z n acc (ts ++ .sep 125 :: rest) = .ok (putAll acc l, rest)

/-! ### Numbers -/

theorem whole_length (d : List Nat) (h : Whole d) (hn : number d < 2 ^ 63) : d.length ≤ 19 := by
  obtain ⟨h1, h2, h3⟩ := h
  cases d with
  | nil => exact absurd rfl h1
  | cons c ds =>
    by_cases h48 : c = 48
    · rw [h3 ds (by rw [h48])]; simp
    · have hc := h2 c (by simp)
      have hpl : Plain ds := fun x hx => h2 x (by simp [hx])
      have : number (c :: ds) = (c - 48) * 10 ^ ds.length + positional 10 (digs ds) := by
        show positional 10 (digs (c :: ds)) = _
        rw [Misc.digs_digit c ds hc, positional, Misc.digs_plain_length ds hpl]
      rw [this] at hn
      by_contra hlen
      simp only [List.length_cons] at hlen
      have h19 : 10 ^ 19 ≤ 10 ^ ds.length := Nat.pow_le_pow_right (by omega) (by omega)
      have : 1 * 10 ^ ds.length ≤ (c - 48) * 10 ^ ds.length := Nat.mul_le_mul_right _ (by omega)
      omega

theorem whole_value (d : List Nat) (h : Whole d) (hn : number d < 2 ^ 63) : Misc.parseNumeric d = .ok (.int (number d)) := by
  have hwf : (⟨none, .dec, false, d⟩ : Literal).WF := by
    refine ⟨h.1, fun c hc => .inr ?_⟩
    have := h.2.1 c hc
    simp [Misc.Spec.digitVal, this]
  have hp : Misc.parseInt d = .ok (number d) := by
    have h1 := Misc.parseInt_text ⟨none, .dec, false, d⟩ hwf
    rw [Misc.expected_small _ rfl rfl (by
      rw [show (2 : Nat) ^ 63 = 9223372036854775808 by norm_num] at hn
      exact Nat.le_of_lt_succ hn)] at h1
    exact h1
  have := Misc.C49_integer ⟨none, .dec, false, d⟩ hwf
  rw [show (⟨none, .dec, false, d⟩ : Literal).text = d from rfl, hp] at this
  exact this

theorem whole_begins (d : List Nat) (h : Whole d) : Begins d := by
  obtain ⟨h1, h2, _⟩ := h
  cases d with
  | nil => exact absurd rfl h1
  | cons c ds =>
    have := h2 c (by simp)
    exact begins_cons c ds (by omega) (by omega)

theorem whole_ascii (d : List Nat) (h : Whole d) : ∀ c ∈ d, c < 128 := fun c hc => by have := h.2.1 c hc; omega

theorem good_number (v w : V) (i f e : List Nat) (hi : Whole i) (hf : FracText f) (he : ExpText e) (hfa : ∀ c ∈ f ++ e, c < 128)
    (hl : (i ++ (f ++ e)).length ≤ 0xFFFF) (n : Misc.Numeric) (hn : Misc.parseNumeric (i ++ (f ++ e)) = .ok n)
    (hv : same n = v) (hw : negate n = w) : Good (.val v) (i ++ (f ++ e)) ∧ Good (.val w) (45 :: (i ++ (f ++ e))) := by
  have ha : ∀ c ∈ i ++ (f ++ e), c < 128 := by
    intro c hc
    rcases List.mem_append.1 hc with h | h
    · exact whole_ascii i hi c h
    · exact hfa c h
  have hB := B_ascii _ ha
  refine ⟨⟨?_, [.val v], fun r hr => ?_, parses_one v⟩, ⟨begins_cons 45 _ (by omega) (by omega), [.val w], fun r hr => ?_, parses_one w⟩⟩
  · obtain ⟨x, s, hx, h⟩ := whole_begins i hi
    exact ⟨x, s ++ (f ++ e), by rw [hx]; rfl, h⟩
  · rw [hB, ← hv]; exact (lexes_number i f e r hi hf he hr hl n hn).1
  · rw [B_cons 45 _ (by omega), hB, ← hw]; exact (lexes_number i f e r hi hf he hr hl n hn).2

theorem good_int (d : List Nat) (h : Whole d) (hn : number d < 2 ^ 63) :
    Good (.val (.int (number d))) d ∧ Good (.val (.int (-(number d : Int)))) (45 :: d) := by
  have hlen := whole_length d h hn
  have := good_number (.int (number d)) (.int (-(number d : Int))) d [] [] h (.inl rfl) (.inl rfl) (by simp) (by simp; omega) (.int (number d))
    (by simpa using whole_value d h hn) rfl (by
      simp only [negate, V.int.injEq]
      have : (number d : Int) < 2 ^ 63 := by exact_mod_cast hn
      omega)
  simpa using this

/-- The parts of the text. -/
theorem decimal_parts (l : FloatLit) (h : Decimal l) : l.text = l.int ++ (l.fracText ++ l.expText) ∧ FracText l.fracText ∧ ExpText l.expText ∧
    (∀ c ∈ l.fracText ++ l.expText, c < 128) ∧ l.WF := by
  obtain ⟨h1, h2, h3, h4, h5, h6⟩ := h
  have hf : FracText l.fracText := by
    unfold FloatLit.fracText
    cases hfr : l.frac with
    | none => exact .inl rfl
    | some f => exact .inr ⟨f, rfl, h3 f hfr⟩
  have he : ExpText l.expText := by
    unfold FloatLit.expText
    cases hex : l.exp with
    | none => exact .inl rfl
    | some p =>
      obtain ⟨u, e⟩ := p
      obtain ⟨e1, e2, e3, e4⟩ := h4 u e hex
      refine .inr ⟨if u then 69 else 101, match e.sign with | none => [] | some true => [45] | some false => [43], e.body, ?_, ?_, ?_, e2, e3, e4⟩
      · obtain ⟨sg, rd, up, bd⟩ := e
        simp only at e1
        subst e1
        rcases sg with _ | (_ | _) <;> simp [Literal.text]
      · cases u <;> simp
      · rcases e.sign with _ | (_ | _) <;> simp
  refine ⟨?_, hf, he, ?_, ⟨⟨h2.1, fun c hc => .inr (h2.2.1 c hc)⟩, fun f hfr c hc => .inr (h3 f hfr c hc), ?_⟩⟩
  · unfold FloatLit.text; rw [h1]; rfl
  · intro c hc
    rcases List.mem_append.1 hc with hc | hc
    · rcases hf with hf | ⟨f, hf, hp⟩
      · rw [hf] at hc; simp at hc
      · rw [hf, List.mem_cons] at hc
        rcases hc with rfl | hc
        · omega
        · have := hp c hc; omega
    · rcases he with he | ⟨x, sg, ds, he, hx, hsg, _, hp, _⟩
      · rw [he] at hc; simp at hc
      · rw [he, List.mem_cons, List.mem_append] at hc
        rcases hc with rfl | hc | hc
        · omega
        · rcases hsg with rfl | rfl | rfl <;> simp at hc <;> omega
        · have := hp c hc; omega
  · intro u e hue
    obtain ⟨e1, e2, e3, _⟩ := h4 u e hue
    refine ⟨⟨e2, fun c hc => .inr ?_⟩, e1⟩
    have := e3 c hc
    simp [Misc.Spec.digitVal, e1, this]

theorem good_flt (l : FloatLit) (b : Nat) (h : Decimal l) (hb : Misc.parseDouble l.text = .ok b) :
    Good (.val (.flt b)) l.text ∧ Good (.val (.flt (b + 2 ^ 63))) (45 :: l.text) := by
  obtain ⟨ht, hf, he, ha, hwf⟩ := decimal_parts l h
  have hnum : Misc.parseNumeric l.text = .ok (.float b) := by
    rw [Misc.C49_numeric l hwf h.some, hb]
  obtain ⟨b1, b2, _⟩ := Misc.parseDouble_rounded l hwf b hb
  have hneg : l.negative = false := by unfold FloatLit.negative; rw [h.sign]; rfl
  rw [hneg] at b2
  have hsz := h.size
  rw [ht] at hnum hsz ⊢
  exact good_number _ _ _ _ _ h.int hf he ha hsz (.float b) hnum rfl (by
    unfold Misc.Spec.signBit at b2
    have : ¬ b / 2 ^ 63 % 2 = 1 := of_decide_eq_false b2
    simp only [negate]
    rw [if_neg this])

/-! ### Arrays and objects -/

theorem good_word (t : List Nat) (v : V) (h : Begins t) (ha : ∀ c ∈ t, c < 128) (hl : ∀ r, Stop r → Lexes (t ++ r) r [.val v]) : Good (.val v) t :=
  ⟨h, [.val v], fun r hr => by rw [B_ascii t ha]; exact hl r hr, parses_one v⟩

theorem good_str (s : List Nat) (h : Str s) : Good (.val (.str s)) (34 :: s ++ [34]) :=
  ⟨begins_cons 34 _ (by omega) (by omega), [.val (.str s)], fun r _ => lexes_string s r h, parses_one _⟩

theorem good_arr (l : List V) (t : List Nat) (h : Good (.elems l) t) : Good (.val (.arr l)) (91 :: t ++ [93]) := by
  obtain ⟨ts, h1, h2⟩ := h
  refine ⟨begins_cons 91 _ (by omega) (by omega), [.sep 91] ++ (ts ++ [.sep 93]), fun r _ => ?_, ⟨⟨_, _, rfl, by simp, by simp⟩, ?_⟩⟩
  · have := (lexes_sep 91 (by decide) (B t ++ 93 :: r)).trans ((h1 r).trans (lexes_sep 93 (by decide) r))
    rw [List.cons_append, B_cons 91 _ (by omega), B_append, B_ascii [93] (by simp)]
    simpa using this
  · intro z rest n hn
    simp only [List.length_append, List.length_cons, List.length_nil] at hn
    obtain ⟨n, rfl⟩ : ∃ k, n = k + 1 := ⟨n - 1, by omega⟩
    have := h2 z rest [] n (by omega)
    show parseValue z (n + 1) (.sep 91 :: (ts ++ [.sep 93]) ++ rest) = _
    rw [List.cons_append, parseValue, if_pos rfl, List.append_assoc, List.singleton_append, this]
    rfl

theorem good_empty (w : List Nat) (h : Ws w) : Good (.elems []) w := by
  refine ⟨[], fun r => ?_, ?_⟩
  · rw [B_ws w h]
    exact lexes_ws _ (solid_cons 93 r (by omega) (by omega)) _ w rfl h
  · intro z rest acc n hn
    obtain ⟨n, rfl⟩ : ∃ k, n = k + 1 := ⟨n - 1, by omega⟩
    simp [parseArray]

/-- A value with whitespace around it. -/
theorem lexes_value (t a b : List Nat) (ha : Ws a) (hb : Ws b) (hbeg : Begins t) (ts : List Tok)
    (h1 : ∀ r, Stop r → Lexes (B t ++ r) r ts) (c : Nat) (hc : c ∈ [44, 58, 93, 125]) (r : List Nat) :
    Lexes (B (a ++ t ++ b) ++ c :: r) (c :: r) ts := by
  have hc' : 33 ≤ c ∧ c < 128 := by simp at hc; omega
  have hstop : c ∈ [9, 10, 13, 32, 44, 58, 93, 125] := by
    simp only [List.mem_cons, List.not_mem_nil, or_false] at hc ⊢; omega
  have s1 := lexes_ws (B t ++ (b ++ c :: r)) (solid_of t _ hbeg) _ a rfl ha
  have s2 := h1 (b ++ c :: r) (stop_ws b c r hb hstop)
  have s3 := lexes_ws (c :: r) (solid_cons c r hc'.1 hc'.2) _ b rfl hb
  have := s1.trans (s2.trans s3)
  rw [B_append, B_append, B_ws a ha, B_ws b hb]
  simpa using this

/-- The first element of an array. -/
theorem parseArray_value (z : End) (n : Nat) (acc : List V) (v : V) (ts rest : List Tok) (h : ParsesVal v ts) (hn : 2 * ts.length ≤ n) :
    parseArray z (n + 1) acc (ts ++ rest) =
      (match rest with
        | [] => atEnd z
        | .sep 93 :: ts => .ok (acc ++ [v], ts)
        | .sep 44 :: ts => parseArray z n (acc ++ [v]) ts
        | _ => .throw) := by
  obtain ⟨⟨x, xs, rfl, hx1, hx2⟩, h⟩ := h
  have := h z rest n hn
  rw [List.cons_append] at this ⊢
  rw [parseArray]
  · rw [this]
    rfl
  · rintro rfl; exact hx1 rfl
  · rintro rfl; exact hx2 rfl

theorem good_one (v : V) (t a b : List Nat) (h : Good (.val v) t) (ha : Ws a) (hb : Ws b) : Good (.elems [v]) (a ++ t ++ b) := by
  obtain ⟨hbeg, ts, h1, h2⟩ := h
  refine ⟨ts, fun r => lexes_value t a b ha hb hbeg ts h1 93 (by simp) r, ?_⟩
  intro z rest acc n hn
  obtain ⟨n, rfl⟩ : ∃ k, n = k + 1 := ⟨n - 1, by omega⟩
  rw [parseArray_value z n acc v ts _ h2 (by omega)]
  rfl

theorem good_more (v : V) (t a b : List Nat) (l : List V) (u : List Nat) (h : Good (.val v) t) (ha : Ws a) (hb : Ws b)
    (hu : Good (.elems l) u) : Good (.elems (v :: l)) (a ++ t ++ b ++ 44 :: u) := by
  obtain ⟨hbeg, ts, h1, h2⟩ := h
  obtain ⟨us, g1, g2⟩ := hu
  refine ⟨ts ++ ([.sep 44] ++ us), fun r => ?_, ?_⟩
  · have := (lexes_value t a b ha hb hbeg ts h1 44 (by simp) (B u ++ 93 :: r)).trans ((lexes_sep 44 (by decide) (B u ++ 93 :: r)).trans (g1 r))
    rw [B_append, B_cons 44 _ (by omega)]
    simpa using this
  · intro z rest acc n hn
    simp only [List.length_append, List.length_cons, List.length_nil] at hn
    obtain ⟨n, rfl⟩ : ∃ k, n = k + 1 := ⟨n - 1, by omega⟩
    have := g2 z rest (acc ++ [v]) n (by omega)
    rw [List.append_assoc, parseArray_value z n acc v ts _ h2 (by omega)]
    simpa using this

theorem setProp_new (o : List (List Nat × V)) (k : List Nat) (v : V) (h : k ∉ o.map Prod.fst) : setProp o k v = o ++ [(k, v)] := by
  induction o with
  | nil => rfl
  | cons p o ih =>
    obtain ⟨k', v'⟩ := p
    simp only [List.map_cons, List.mem_cons, not_or] at h
    rw [setProp, if_neg (fun e => h.1 e.symm), ih h.2]; rfl

theorem setProp_again (a b : List (List Nat × V)) (k : List Nat) (v w : V) (h : k ∉ a.map Prod.fst) :
    setProp (a ++ (k, v) :: b) k w = a ++ (k, w) :: b := by
  induction a with
  | nil => simp [setProp]
  | cons p a ih =>
    obtain ⟨k', v'⟩ := p
    simp only [List.map_cons, List.mem_cons, not_or] at h
    rw [List.cons_append, setProp, if_neg (fun e => h.1 e.symm), ih h.2]; rfl

/-- The object which the specification describes is the one which is made. -/
theorem merged_eq (l o : List (List Nat × V)) (h : Merged l o) : putAll [] l = o ∧ (o.map Prod.fst).Nodup ∧ ∀ k, k ∈ o.map Prod.fst ↔ k ∈ l.map Prod.fst := by
  induction h with
  | nil => exact ⟨rfl, by simp, by simp⟩
  | new l o k v _ hk ih =>
    obtain ⟨h1, h2, h3⟩ := ih
    have hko : k ∉ o.map Prod.fst := fun h => hk ((h3 k).1 h)
    refine ⟨?_, ?_, ?_⟩
    · rw [putAll, List.foldl_append]
      show setProp (putAll [] l) k v = _
      rw [h1, setProp_new o k v hko]
    · rw [List.map_append, List.nodup_append]
      refine ⟨h2, by simp, ?_⟩
      intro x hx y hy
      simp at hy
      rintro rfl
      exact hko (hy ▸ hx)
    · intro x
      simp only [List.map_append, List.mem_append, h3 x, List.map_cons, List.map_nil]
  | again l a b k v w _ ih =>
    obtain ⟨h1, h2, h3⟩ := ih
    have hka : k ∉ a.map Prod.fst := by
      intro hm
      rw [List.map_append, List.nodup_append] at h2
      exact h2.2.2 k hm k (by simp) rfl
    refine ⟨?_, by simpa using h2, ?_⟩
    · rw [putAll, List.foldl_append]
      show setProp (putAll [] l) k w = _
      rw [h1, setProp_again a b k v w hka]
    · intro x
      have := h3 x
      simp only [List.map_append, List.map_cons, List.mem_append, List.mem_cons, List.map_nil, List.not_mem_nil, or_false] at this ⊢
      constructor
      · intro hx; exact .inl (this.1 hx)
      · rintro (hx | rfl)
        · exact this.2 hx
        · exact .inr (.inl rfl)

theorem merged_self (l : List (List Nat × V)) (h : (l.map Prod.fst).Nodup) : Merged l l := by
  induction l using List.reverseRecOn with
  | nil => exact .nil
  | append_singleton l p ih =>
    rw [List.map_append, List.nodup_append] at h
    exact .new l l p.1 p.2 (ih h.1) (fun hm => h.2.2 p.1 hm p.1 (by simp) rfl)

theorem good_obj (l o : List (List Nat × V)) (t : List Nat) (h : Good (.members l) t) (hn : Merged l o) :
    Good (.val (.obj o)) (123 :: t ++ [125]) := by
  obtain ⟨ts, h1, h2⟩ := h
  refine ⟨begins_cons 123 _ (by omega) (by omega), [.sep 123] ++ (ts ++ [.sep 125]), fun r _ => ?_, ⟨⟨_, _, rfl, by simp, by simp⟩, ?_⟩⟩
  · have := (lexes_sep 123 (by decide) (B t ++ 125 :: r)).trans ((h1 r).trans (lexes_sep 125 (by decide) r))
    rw [List.cons_append, B_cons 123 _ (by omega), B_append, B_ascii [125] (by simp)]
    simpa using this
  · intro z rest n hlen
    simp only [List.length_append, List.length_cons, List.length_nil] at hlen
    obtain ⟨n, rfl⟩ : ∃ k, n = k + 1 := ⟨n - 1, by omega⟩
    have := h2 z rest [] n (by omega)
    rw [(merged_eq l o hn).1] at this
    show parseValue z (n + 1) (.sep 123 :: (ts ++ [.sep 125]) ++ rest) = _
    rw [List.cons_append, parseValue, if_neg (by decide), if_pos rfl, List.append_assoc, List.singleton_append, this]

theorem good_noMembers (w : List Nat) (h : Ws w) : Good (.members []) w := by
  refine ⟨[], fun r => ?_, ?_⟩
  · rw [B_ws w h]
    exact lexes_ws _ (solid_cons 125 r (by omega) (by omega)) _ w rfl h
  · intro z rest acc n hn
    obtain ⟨n, rfl⟩ : ∃ k, n = k + 1 := ⟨n - 1, by omega⟩
    simp [parseObject, putAll]

/-- The first member of an object. -/
theorem parseObject_value (z : End) (n : Nat) (acc : List (List Nat × V)) (k : List Nat) (v : V) (ts rest : List Tok) (h : ParsesVal v ts)
    (hn : 2 * ts.length ≤ n) :
    parseObject z (n + 1) acc (.val (.str k) :: .sep 58 :: (ts ++ rest)) =
      (match rest with
        | [] => atEnd z
        | .sep 125 :: ts => .ok (setProp acc k v, ts)
        | .sep 44 :: ts => parseObject z n (setProp acc k v) ts
        | _ => .throw) := by
  rw [parseObject]
  simp only [h.2 z rest n hn]
  rfl

theorem lexes_member (k : List Nat) (t a b c d : List Nat) (hk : Str k) (ha : Ws a) (hb : Ws b) (hc : Ws c) (hd : Ws d) (hbeg : Begins t)
    (ts : List Tok) (h1 : ∀ r, Stop r → Lexes (B t ++ r) r ts) (x : Nat) (hx : x ∈ [44, 58, 93, 125]) (r : List Nat) :
    Lexes (B (a ++ (34 :: k ++ [34]) ++ b ++ 58 :: (c ++ t ++ d)) ++ x :: r) (x :: r) (.val (.str k) :: .sep 58 :: ts) := by
  have s1 := lexes_value (34 :: k ++ [34]) a b ha hb (begins_cons 34 _ (by omega) (by omega)) _ (fun r _ => lexes_string k r hk) 58 (by simp)
    (B (c ++ t ++ d) ++ x :: r)
  have s2 := lexes_sep 58 (by decide) (B (c ++ t ++ d) ++ x :: r)
  have s3 := lexes_value t c d hc hd hbeg ts h1 x hx r
  have := s1.trans (s2.trans s3)
  rw [B_append, B_cons 58 _ (by omega)]
  simpa using this

theorem good_oneMember (k : List Nat) (v : V) (t a b c d : List Nat) (hk : Str k) (h : Good (.val v) t) (ha : Ws a) (hb : Ws b) (hc : Ws c)
    (hd : Ws d) : Good (.members [(k, v)]) (a ++ (34 :: k ++ [34]) ++ b ++ 58 :: (c ++ t ++ d)) := by
  obtain ⟨hbeg, ts, h1, h2⟩ := h
  refine ⟨_, fun r => lexes_member k t a b c d hk ha hb hc hd hbeg ts h1 125 (by simp) r, ?_⟩
  intro z rest acc n hn
  simp only [List.length_cons] at hn
  obtain ⟨n, rfl⟩ : ∃ k, n = k + 1 := ⟨n - 1, by omega⟩
  rw [List.cons_append, List.cons_append, parseObject_value z n acc k v ts _ h2 (by omega)]
  rfl

theorem good_moreMembers (k : List Nat) (v : V) (t a b c d : List Nat) (l : List (List Nat × V)) (u : List Nat) (hk : Str k) (h : Good (.val v) t)
    (ha : Ws a) (hb : Ws b) (hc : Ws c) (hd : Ws d) (hu : Good (.members l) u) :
    Good (.members ((k, v) :: l)) (a ++ (34 :: k ++ [34]) ++ b ++ 58 :: (c ++ t ++ d ++ 44 :: u)) := by
  obtain ⟨hbeg, ts, h1, h2⟩ := h
  obtain ⟨us, g1, g2⟩ := hu
  refine ⟨(.val (.str k) :: .sep 58 :: ts) ++ ([.sep 44] ++ us), fun r => ?_, ?_⟩
  · have := (lexes_member k t a b c d hk ha hb hc hd hbeg ts h1 44 (by simp) (B u ++ 125 :: r)).trans
      ((lexes_sep 44 (by decide) (B u ++ 125 :: r)).trans (g1 r))
    have he : a ++ (34 :: k ++ [34]) ++ b ++ 58 :: (c ++ t ++ d ++ 44 :: u) = (a ++ (34 :: k ++ [34]) ++ b ++ 58 :: (c ++ t ++ d)) ++ 44 :: u := by simp
    rw [he, B_append, B_cons 44 _ (by omega), List.append_assoc]
    exact this
  · intro z rest acc n hn
    simp only [List.length_append, List.length_cons, List.length_nil] at hn
    obtain ⟨n, rfl⟩ : ∃ k, n = k + 1 := ⟨n - 1, by omega⟩
    have := g2 z rest (setProp acc k v) n (by omega)
    rw [List.append_assoc, List.cons_append, List.cons_append, parseObject_value z n acc k v ts _ h2 (by omega)]
    exact this

theorem shows_good (i : Item) (t : List Nat) (h : Shows i t) : Good i t := by
  induction h with
  | null => exact good_word _ _ (begins_cons 110 _ (by omega) (by omega)) (by decide) lexes_null
  | true => exact good_word _ _ (begins_cons 116 _ (by omega) (by omega)) (by decide) lexes_true
  | false => exact good_word _ _ (begins_cons 102 _ (by omega) (by omega)) (by decide) lexes_false
  | int d h1 h2 => exact (good_int d h1 h2).1
  | negInt d h1 h2 => exact (good_int d h1 h2).2
  | flt l b h1 h2 => exact (good_flt l b h1 h2).1
  | negFlt l b h1 h2 => exact (good_flt l b h1 h2).2
  | str s h => exact good_str s h
  | empty w h => exact good_arr [] w (good_empty w h)
  | arr l t _ ih => exact good_arr l t ih
  | one v t a b _ ha hb ih => exact good_one v t a b ih ha hb
  | more v t a b l u _ ha hb _ ih1 ih2 => exact good_more v t a b l u ih1 ha hb ih2
  | noMembers w h => exact good_obj [] [] w (good_noMembers w h) .nil
  | obj l o t _ hn ih => exact good_obj l o t ih hn
  | oneMember k v t a b c d hk _ ha hb hc hd ih => exact good_oneMember k v t a b c d hk ih ha hb hc hd
  | moreMembers k v t a b c d l u hk _ ha hb hc hd _ ih1 ih2 => exact good_moreMembers k v t a b c d l u hk ih1 ha hb hc hd ih2

end Verif.Json
