import Verif.Re.Code
import Verif.Re.ClassFacts

/-!
# The compiler makes the words of an expression

Proof that `parse_re` accepts the text of an expression and makes the words given
by `Code`.
-/

namespace Verif.Re

open Spec

/-- The ranges of class `id`. -/
def Ctx.cls (c : Ctx) (id : Nat) : Option (List Range) :=
  c.descs[id]?.map fun d => (c.data.drop d.1).take d.2

/-- The state of the compiler is in order. -/
structure Inv (c : Ctx) : Prop where
  desc : c.descs.length ≤ c.buf.length
  cnt : c.counts ≤ c.buf.length
  grp : c.groups ≤ c.buf.length
  tab : ∀ d ∈ c.descs, d.1 + d.2 ≤ c.data.length
  dig : ∀ id, c.digit = some id → id < c.descs.length ∧ ClassIs c.cls id fun x => decide (48 ≤ x) && decide (x ≤ 57)
  wrd : ∀ id, c.word = some id → id < c.descs.length ∧ ClassIs c.cls id wordChar

/-! ### Emitting -/

theorem emit_ok {c : Ctx} {code : Nat} {args : List Nat} (h : c.buf.length + 1 + args.length ≤ 32767) :
    c.emit code args = some { c with buf := c.buf ++ code :: args.map (· % 65536), canMult := true } := by
  unfold Ctx.emit
  rw [if_neg]
  simp
  omega

theorem rotate_ok {c : Ctx} {A M Z : List Nat} {i j : Nat} (h : c.buf = A ++ M ++ Z) (hi : i = A.length)
    (hj : j = (A ++ M).length) : c.rotate i j = { c with buf := A ++ Z ++ M } := by
  unfold Ctx.rotate
  subst hi
  subst hj
  rw [h, List.take_left, List.drop_left, List.drop_left, List.append_assoc A M Z, List.take_left]

theorem patch_ok {c : Ctx} {A Z : List Nat} {x y i : Nat} (t : Nat) (h : c.buf = A ++ x :: y :: Z) (hi : i = A.length) :
    c.patch i t = { c with buf := A ++ x :: word16 ((t : Int) - i) :: Z } := by
  unfold Ctx.patch
  subst hi
  rw [h]
  simp

theorem word16_nat {a b n : Nat} (h : a = b + n) (hn : n ≤ 32767) : word16 ((a : Int) - b) = n := by
  unfold word16
  omega

theorem word16_neg {a b n : Nat} (h : b = a + n) : word16 ((a : Int) - b) = word16 (-(n : Int)) := by
  unfold word16
  congr 2
  omega

theorem emitMultiplicity_ok {c : Ctx} {B body : List Nat} {min max : Nat} {lazy : Bool} {rest : List Nat}
    (hb : c.buf = B ++ body) (hin : c.input = (if lazy then [63] else []) ++ rest) (hrest : rest.head? ≠ some 63)
    (hsize : c.buf.length + 9 ≤ 32767) (hcnt : c.counts ≤ c.buf.length) (hmin : min ≤ 65535) (hmax : max ≤ 65535) :
    emitMultiplicity c B.length min max = some { c with
      input := rest, counts := c.counts + 1, buf := B ++ repCode lazy c.counts min max body, canMult := true } := by
  have hlazy : decide (c.peek = some 63) = lazy := by
    unfold Ctx.peek
    rw [hin]
    cases lazy <;> simp [hrest]
  have hcons : (if lazy = true then c.consume else c) = { c with input := rest } := by
    cases lazy
    · simp only [Bool.false_eq_true, if_false, List.nil_append] at hin ⊢
      cases c
      simp_all
    · simp only [if_true] at hin ⊢
      simp [Ctx.consume, hin]
  have hm1 : c.counts % 65536 = c.counts := by omega
  have hm2 : min % 65536 = min := by omega
  have hm3 : max % 65536 = max := by omega
  unfold emitMultiplicity
  simp only [hlazy, hcons]
  rw [emit_ok (by simpa using by omega)]
  simp only [List.map_cons, List.map_nil, hm1, hm2, Nat.zero_mod]
  have hlen : B.length + body.length = c.buf.length := by rw [hb]; simp
  rw [rotate_ok (A := B) (M := body) (Z := [if lazy = true then 13 else 12, 0, c.counts, min]) (by simp [hb]) rfl
    (by rw [hb])]
  rw [emit_ok (by simp; omega)]
  simp only [List.map_cons, List.map_nil, hm1, hm2, hm3, Nat.zero_mod]
  rw [patch_ok (A := B) (x := if lazy = true then 13 else 12) (y := 0) (Z := [c.counts, min] ++ body ++
    [if lazy = true then 15 else 14, 0, c.counts, min, max]) _ (by simp) rfl]
  rw [patch_ok (A := B ++ [if lazy = true then 13 else 12, body.length + 9, c.counts, min] ++ body)
    (x := if lazy = true then 15 else 14) (y := 0) (Z := [c.counts, min, max]) _ ?_ (by simp)]
  · simp only [repCode]
    rw [word16_neg (n := body.length) (by simp; omega)]
    simp
  · rw [word16_nat (n := body.length + 9) (by simp) (by omega)]
    simp

/-! ### Multiplicities -/

theorem foldl_ge (ds : List Nat) : ∀ v, v ≤ ds.foldl (fun v d => v * 10 + (d - 48)) v := by
  induction ds with
  | nil => intro v; exact Nat.le_refl _
  | cons d ds ih =>
    intro v
    have := ih (v * 10 + (d - 48))
    simp only [List.foldl_cons]
    omega

theorem isDigit_eq {d : Nat} : isDigit d = true ↔ 48 ≤ d ∧ d ≤ 57 := by
  simp [isDigit]

theorem moreDigits_ok {rest : List Nat} (hrest : ∀ d, rest.head? = some d → isDigit d = false) :
    ∀ (ds : List Nat) (v : Nat), (∀ d ∈ ds, 48 ≤ d ∧ d ≤ 57) → ds.foldl (fun v d => v * 10 + (d - 48)) v ≤ 65535 →
    moreDigits (ds ++ rest) v = some (ds.foldl (fun v d => v * 10 + (d - 48)) v, rest)
  | [], v, _, _ => by
    cases rest with
    | nil => rfl
    | cons d r =>
      have := hrest d rfl
      simp [moreDigits, this]
  | d :: ds, v, hd, hv => by
    have h1 := isDigit_eq.2 (hd d (by simp))
    have h2 := foldl_ge ds (v * 10 + (d - 48))
    simp only [List.foldl_cons] at hv
    simp only [List.cons_append, moreDigits, h1, if_true]
    rw [if_neg (by omega)]
    exact moreDigits_ok hrest ds _ (fun x hx => hd x (by simp [hx])) hv

theorem number_ok {ds rest : List Nat} (h : numeral ds) (hrest : ∀ d, rest.head? = some d → isDigit d = false) :
    number (ds ++ rest) = some (value ds, rest) := by
  obtain ⟨hne, hd, hv⟩ := h
  cases ds with
  | nil => exact absurd rfl hne
  | cons d ds =>
    have h1 := isDigit_eq.2 (hd d (by simp))
    simp only [List.cons_append, number, h1, if_true]
    have hval : value (d :: ds) = ds.foldl (fun v d => v * 10 + (d - 48)) (d - 48) := by
      simp [value]
    rw [hval] at hv ⊢
    exact moreDigits_ok hrest ds _ (fun x hx => hd x (by simp [hx])) hv

theorem braces_exactly {ds rest : List Nat} (h : numeral ds) (h0 : value ds ≠ 0) :
    braces (ds ++ 125 :: rest) = some (value ds, value ds, rest) := by
  unfold braces
  rw [number_ok h (by simp [isDigit])]
  simp [h0]

theorem braces_atLeast {ds rest : List Nat} (h : numeral ds) :
    braces (ds ++ 44 :: 125 :: rest) = some (value ds, 0xFFFF, rest) := by
  unfold braces
  rw [number_ok h (by simp [isDigit])]
  have h1 : ¬ 65535 < value ds := by have := h.2.2; omega
  simp [h1]

theorem braces_between {ds es rest : List Nat} (h : numeral ds) (h' : numeral es) (hle : value ds ≤ value es)
    (h0 : value es ≠ 0) : braces (ds ++ 44 :: (es ++ 125 :: rest)) = some (value ds, value es, rest) := by
  unfold braces
  rw [number_ok h (by simp [isDigit])]
  have hhead : (es ++ 125 :: rest).head? ≠ some 125 := by
    cases es with
    | nil => exact absurd rfl h'.1
    | cons d es =>
      have := h'.2.1 d (by simp)
      simp
      omega
  have h1 : ¬ value es < value ds := by omega
  have h2 : ¬ (44 :: (es ++ 125 :: rest)).tail.head? = some 125 := hhead
  have h3 := number_ok h' (rest := 125 :: rest) (by simp [isDigit])
  simp only [List.head?_cons, if_true, if_neg h2]
  simp only [List.tail_cons, h3, if_neg h1, if_neg h0, List.head?_cons, if_true, List.tail_cons]

/-- No multiplicity follows. -/
def Calm (rest : List Nat) : Prop := ∀ x, rest.head? = some x → x ≠ 42 ∧ x ≠ 43 ∧ x ≠ 63 ∧ x ≠ 123

theorem Times.text_head {t : Times} (h : t.ok) (rest : List Nat) : ∃ x r, t.text ++ rest = x :: r ∧
    (x = 42 ∨ x = 43 ∨ x = 63 ∨ x = 123) ∧
    (x = 42 → r = rest ∧ t.min = 0 ∧ t.limit = 0xFFFF) ∧ (x = 43 → r = rest ∧ t.min = 1 ∧ t.limit = 0xFFFF) ∧
    (x = 63 → r = rest ∧ t.min = 0 ∧ t.limit = 1) ∧ (x = 123 → braces r = some (t.min, t.limit, rest)) := by
  cases t with
  | star => exact ⟨42, rest, rfl, by simp, by simp [Times.min, Times.limit, Times.max], by simp, by simp, by simp⟩
  | plus => exact ⟨43, rest, rfl, by simp, by simp, by simp [Times.min, Times.limit, Times.max], by simp, by simp⟩
  | opt => exact ⟨63, rest, rfl, by simp, by simp, by simp, by simp [Times.min, Times.limit, Times.max], by simp⟩
  | exactly ds =>
    refine ⟨123, ds ++ 125 :: rest, by simp [Times.text], by simp, by simp, by simp, by simp, fun _ => ?_⟩
    exact braces_exactly h.1 h.2
  | atLeast ds =>
    refine ⟨123, ds ++ 44 :: 125 :: rest, by simp [Times.text], by simp, by simp, by simp, by simp, fun _ => ?_⟩
    exact braces_atLeast h
  | between ds es =>
    refine ⟨123, ds ++ 44 :: (es ++ 125 :: rest), by simp [Times.text], by simp, by simp, by simp, by simp, fun _ => ?_⟩
    exact braces_between h.1 h.2.1 h.2.2.1 h.2.2.2

theorem parseMultiplicity_ok {c : Ctx} {B body rest : List Nat} {q : Option Quant} (hq : qok q) (hc : c.canMult = true)
    (hb : c.buf = B ++ body) (hin : c.input = qtext q ++ rest) (hrest : Calm rest)
    (hsize : c.buf.length + (if q.isSome then 9 else 0) ≤ 32767) (hcnt : c.counts ≤ c.buf.length) :
    ∃ m, parseMultiplicity c B.length = some { c with
      input := rest, counts := c.counts + quantCounts q, buf := B ++ quantCode q c.counts body, canMult := m } := by
  cases q with
  | none =>
    refine ⟨c.canMult, ?_⟩
    simp only [qtext, List.nil_append] at hin
    simp only [quantCounts, Option.isSome_none, Bool.false_eq_true, if_false, quantCode, ← hb, ← hin, Nat.add_zero]
    rw [← hin] at hrest
    unfold parseMultiplicity Ctx.peek
    cases hh : c.input.head? with
    | none => rfl
    | some x =>
      have := hrest x hh
      simp only
      rw [if_neg (by omega)]
  | some q =>
    refine ⟨false, ?_⟩
    obtain ⟨x, r, htext, hx, h1, h2, h3, h4⟩ := Times.text_head hq ((if q.lazy then [63] else []) ++ rest)
    simp only [qtext, List.append_assoc, htext] at hin
    have hok := quantOk_of_qok hq q rfl
    simp only [Option.isSome_some, if_true] at hsize
    have hr63 : rest.head? ≠ some 63 := fun h => (hrest 63 h).2.2.1 rfl
    have hem : ∀ c1 : Ctx, c1.buf = c.buf → c1.counts = c.counts → c1.input = (if q.lazy then [63] else []) ++ rest →
        emitMultiplicity c1 B.length q.times.min q.times.limit = some { c1 with
          input := rest, counts := c.counts + 1, buf := B ++ repCode q.lazy c.counts q.times.min q.times.limit body,
          canMult := true } := by
      intro c1 e1 e2 e3
      rw [emitMultiplicity_ok (e1.trans hb) e3 hr63 (by rw [e1]; exact hsize) (by rw [e1, e2]; exact hcnt) (by omega)
        (by omega), e2]
    simp only [quantCounts, Option.isSome_some, if_true, quantCode]
    unfold parseMultiplicity Ctx.peek
    rw [hin]
    simp only [List.head?_cons]
    rw [if_pos hx, if_pos hc]
    rcases hx with rfl | rfl | rfl | rfl
    · obtain ⟨e1, e2, e3⟩ := h1 rfl
      have := hem c.consume rfl rfl (by simp only [Ctx.consume, hin, List.tail_cons, e1])
      rw [e2, e3] at this
      simp only [if_true, this, Option.map_some, e2, e3]
      rfl
    · obtain ⟨e1, e2, e3⟩ := h2 rfl
      have := hem c.consume rfl rfl (by simp only [Ctx.consume, hin, List.tail_cons, e1])
      rw [e2, e3] at this
      simp only [if_true, if_neg (show ¬ 43 = 42 by omega), this, Option.map_some, e2, e3]
      rfl
    · obtain ⟨e1, e2, e3⟩ := h3 rfl
      have := hem c.consume rfl rfl (by simp only [Ctx.consume, hin, List.tail_cons, e1])
      rw [e2, e3] at this
      simp only [if_true, if_neg (show ¬ 63 = 42 by omega), if_neg (show ¬ 63 = 43 by omega), this, Option.map_some, e2, e3]
      rfl
    · have hbr := h4 rfl
      have := hem { c.consume with input := (if q.lazy then [63] else []) ++ rest } rfl rfl rfl
      have hci : c.consume.input = r := by simp [Ctx.consume, hin]
      simp only [if_neg (show ¬ 123 = 42 by omega), if_neg (show ¬ 123 = 43 by omega), if_neg (show ¬ 123 = 63 by omega),
        hci, hbr, this, Option.map_some]
      rfl

/-! ### Classes -/

/-- The ranges made of several ones, added one after the other. -/
def rangesOf (l : List (Nat × Nat)) : List Range := l.foldl (fun rs p => addRange rs p.1 p.2) []

/-- A context with one more class. -/
def Ctx.withClass (c : Ctx) (rs : List Range) : Ctx :=
  { c with descs := c.descs ++ [(c.data.length, rs.length)], data := c.data ++ rs }

theorem generateClass_eq (c : Ctx) : c.generateClass = c.withClass [] := by
  simp [Ctx.generateClass, Ctx.withClass]

theorem withClass_addRange (c : Ctx) (rs : List Range) (b e : Nat) :
    (c.withClass rs).addRange c.descs.length b e = c.withClass (addRange rs b e) := by
  simp only [Ctx.addRange, Ctx.withClass]
  simp

theorem withClass_ext {c : Ctx} (hc : ∀ d ∈ c.descs, d.1 + d.2 ≤ c.data.length) (rs : List Range) :
    ∀ id l, c.cls id = some l → (c.withClass rs).cls id = some l := by
  intro id l h
  unfold Ctx.cls at h ⊢
  cases hd : c.descs[id]? with
  | none => rw [hd] at h; cases h
  | some d =>
    have hlt : id < c.descs.length := (List.getElem?_eq_some_iff.1 hd).1
    have := hc d (List.mem_of_getElem? hd)
    rw [hd] at h
    simp only [Option.map_some, Option.some.injEq] at h
    simp only [Ctx.withClass, List.getElem?_append_left hlt, hd, Option.map_some, Option.some.injEq]
    rw [← h, List.drop_append_of_le_length (by omega), List.take_append_of_le_length (by simp; omega)]

theorem withClass_cls (c : Ctx) (rs : List Range) : (c.withClass rs).cls c.descs.length = some rs := by
  simp [Ctx.cls, Ctx.withClass]

theorem withClass_tab {c : Ctx} (hc : ∀ d ∈ c.descs, d.1 + d.2 ≤ c.data.length) (rs : List Range) :
    ∀ d ∈ (c.withClass rs).descs, d.1 + d.2 ≤ (c.withClass rs).data.length := by
  intro d hd
  simp only [Ctx.withClass, List.mem_append, List.mem_singleton, List.length_append] at hd ⊢
  rcases hd with h | rfl
  · have := hc d h
    omega
  · exact Nat.le_refl _

/-- What a list of ranges lists. -/
def covers (l : List (Nat × Nat)) (c : Nat) : Bool := l.any fun p => decide (p.1 ≤ c) && decide (c ≤ p.2)

/-- Nothing is swallowed. -/
def Plain (pre : List (Nat × Nat)) (p : Nat × Nat) : Prop :=
  ¬ (0 < p.1 ∧ (∀ c, p.1 ≤ c + 1 → c ≤ p.2 + 1 → covers pre c = true) ∧
    ∃ u v, p.2 < u ∧ u < v ∧ covers pre u = false ∧ covers pre v = true)

theorem rangesOf_snoc (l : List (Nat × Nat)) (p : Nat × Nat) : rangesOf (l ++ [p]) = addRange (rangesOf l) p.1 p.2 := by
  simp [rangesOf]

theorem addRange_plain {l : List (Nat × Nat)} {rs : List Range} (hs : Sep rs) (hl : ∀ c, Listed rs c ↔ covers l c = true)
    {p : Nat × Nat} (hle : p.1 ≤ p.2) (hp : Plain l p) : Sep (addRange rs p.1 p.2) ∧ addRange rs p.1 p.2 ≠ [] ∧
      ∀ c, Listed (addRange rs p.1 p.2) c ↔ covers (l ++ [p]) c = true := by
  obtain ⟨h1, h2, h3⟩ := addRange_spec hs hle (by
    intro x hx y hy hxy hxb
    apply Nat.le_of_not_lt
    intro hlt
    refine hp ⟨by omega, fun c h1 h2 => (hl c).1 ⟨x, hx, by omega, by omega⟩, x.2 + 1, y.1, by omega, ?_, ?_, ?_⟩
    · obtain ⟨i, hi, he⟩ := mem_rangeAt hx
      obtain ⟨j, hj, hf⟩ := mem_rangeAt hy
      by_cases hij : i < j
      · have := hs.lt hij hj
        rw [he, hf] at this
        omega
      · by_cases hji : j < i
        · have := hs.lt hji hi
          have := hs.le hi
          have := hs.le hj
          rw [he, hf] at *
          omega
        · have : i = j := by omega
          subst this
          rw [he] at hf
          subst hf
          have := hs.2 _ hx
          omega
    · cases hc : covers l (x.2 + 1) with
      | false => rfl
      | true =>
        obtain ⟨r, hr, h1, h2⟩ := (hl _).2 hc
        obtain ⟨i, hi, he⟩ := mem_rangeAt hx
        obtain ⟨j, hj, hf⟩ := mem_rangeAt hr
        by_cases hij : i < j
        · have := hs.lt hij hj
          rw [he, hf] at this
          omega
        · by_cases hji : j < i
          · have := hs.lt hji hi
            have := hs.le hi
            rw [he, hf] at *
            omega
          · have : i = j := by omega
            subst this
            rw [he] at hf
            subst hf
            omega
    · exact (hl _).1 ⟨y, hy, Nat.le_refl _, hs.2 y hy⟩)
  refine ⟨h1, h2, fun c => ?_⟩
  rw [h3, hl]
  simp [covers, List.any_append]

theorem rangesOf_spec {l : List (Nat × Nat)} (hle : ∀ p ∈ l, p.1 ≤ p.2)
    (hp : ∀ pre p post, l = pre ++ p :: post → Plain pre p) :
    Sep (rangesOf l) ∧ (l ≠ [] → rangesOf l ≠ []) ∧ ∀ c, Listed (rangesOf l) c ↔ covers l c = true := by
  have : ∀ (m : List (Nat × Nat)) (n : Nat), m.length = n → (∃ post, l = m ++ post) →
      Sep (rangesOf m) ∧ (m ≠ [] → rangesOf m ≠ []) ∧ ∀ c, Listed (rangesOf m) c ↔ covers m c = true := by
    intro m n
    induction n generalizing m with
    | zero =>
      intro hm _
      have : m = [] := List.length_eq_zero_iff.1 hm
      subst this
      exact ⟨sep_nil, fun h => absurd rfl h, fun c => by simp [rangesOf, listed_nil, covers]⟩
    | succ n ih =>
      intro hm ⟨post, hl⟩
      rcases List.eq_nil_or_concat m with rfl | ⟨m', p, rfl⟩
      · simp at hm
      · simp only [List.concat_eq_append] at *
        obtain ⟨h1, _, h3⟩ := ih m' (by simpa using hm) ⟨p :: post, by simpa using hl⟩
        rw [rangesOf_snoc]
        obtain ⟨g1, g2, g3⟩ := addRange_plain h1 h3 (hle p (by rw [hl]; simp)) (hp m' p post (by simpa using hl))
        exact ⟨g1, fun _ => g2, g3⟩
  exact this l l.length rfl ⟨[], by simp⟩

theorem rangesOf_match {l : List (Nat × Nat)} (hne : l ≠ []) (hle : ∀ p ∈ l, p.1 ≤ p.2)
    (hp : ∀ pre p post, l = pre ++ p :: post → Plain pre p) (c : Nat) : matchClass (rangesOf l) c = some (covers l c) := by
  obtain ⟨h1, h2, h3⟩ := rangesOf_spec hle hp
  obtain ⟨v, hv, hiff⟩ := matchClass_spec h1 (h2 hne) c
  rw [hv]
  congr 1
  rw [Bool.eq_iff_iff, hiff, h3]

end Verif.Re
