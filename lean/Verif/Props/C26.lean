import Verif.Str.Cmp
import Verif.Props.C29

/-!
C26: string comparison is the lexicographic order by code point.

Characters are compared with `wcscoll`, which depends on the locale; it is the parameter `coll`.  Lists of numbers are compared
with Lean's `<`, the lexicographic order.
-/
namespace Verif.Props

open Verif.Str

/-- The "C" locale: characters are ordered by code point. -/
def ByCode (coll : Nat → Nat → Int) : Prop := ∀ x y, (coll x y < 0 ↔ x < y) ∧ (0 < coll x y ↔ y < x)

/-- The locale tells different characters apart. -/
def Separates (coll : Nat → Nat → Int) : Prop := ∀ x y, x ≠ y → coll x y ≠ 0

theorem ByCode.separates {coll : Nat → Nat → Int} (h : ByCode coll) : Separates coll := by
  intro x y hxy c
  have := h x y
  omega

/-- `r` is the result of comparing `xs` with `ys`. -/
structure Orders (r : Int) (xs ys : List Nat) : Prop where
  lt : r < 0 ↔ xs < ys
  eq : r = 0 ↔ xs = ys
  gt : 0 < r ↔ ys < xs

theorem lex_prefix (p s t : List Nat) (h : s < t) : p ++ s < p ++ t := by
  induction p with
  | nil => exact h
  | cons a p ih => rw [List.cons_append, List.cons_append, List.cons_lt_cons_iff]; exact Or.inr ⟨rfl, ih⟩

theorem lex_irrefl (a : List Nat) : ¬ a < a := by
  induction a with
  | nil => simp
  | cons x a ih => rw [List.cons_lt_cons_iff]; rintro (h | ⟨_, h⟩); exact absurd h (Nat.lt_irrefl _); exact ih h

theorem lex_asymm (a b : List Nat) (h : a < b) : ¬ b < a := by
  induction a generalizing b with
  | nil => simp
  | cons x a ih =>
    cases b with
    | nil => simp at h
    | cons y b =>
      rw [List.cons_lt_cons_iff] at h ⊢
      rintro (k | ⟨k1, k2⟩)
      · rcases h with h | ⟨h, _⟩ <;> omega
      · rcases h with h | ⟨_, h⟩
        · omega
        · exact ih b h k2

theorem orders_lt {r : Int} {xs ys : List Nat} (h : xs < ys) (hr : r < 0) : Orders r xs ys :=
  ⟨⟨fun _ => h, fun _ => hr⟩, ⟨fun c => by omega, fun c => by subst c; exact absurd h (lex_irrefl _)⟩,
    ⟨fun c => by omega, fun c => absurd c (lex_asymm _ _ h)⟩⟩

theorem orders_gt {r : Int} {xs ys : List Nat} (h : ys < xs) (hr : 0 < r) : Orders r xs ys :=
  ⟨⟨fun c => by omega, fun c => absurd c (lex_asymm _ _ h)⟩, ⟨fun c => by omega, fun c => by subst c; exact absurd h (lex_irrefl _)⟩,
    ⟨fun _ => h, fun _ => hr⟩⟩

theorem orders_eq {r : Int} {xs ys : List Nat} (h : xs = ys) (hr : r = 0) : Orders r xs ys := by
  subst h
  exact ⟨⟨fun c => by omega, fun c => absurd c (lex_irrefl _)⟩, ⟨fun _ => rfl, fun _ => hr⟩, ⟨fun c => by omega, fun c => absurd c (lex_irrefl _)⟩⟩

theorem cmpRes_orders {coll : Nat → Nat → Int} (hc : ByCode coll) {mis : Prop} (hm : ¬ mis) {xs ys : List Nat} {r : Int}
    (h : CmpRes coll mis xs ys r) : Orders r xs ys := by
  rcases h with ⟨h1 | h1, h2⟩ | ⟨x, y, ⟨p, s, t, h1, h2, h3⟩, h4⟩ | ⟨h1, _⟩
  · obtain ⟨q, rfl⟩ := h1
    rw [List.length_append] at h2
    cases q with
    | nil => exact orders_eq (by simp) (by simp at h2; omega)
    | cons c q => exact orders_lt (by have := lex_prefix xs [] (c :: q) (by simp); simpa using this) (by simp at h2; omega)
  · obtain ⟨q, rfl⟩ := h1
    rw [List.length_append] at h2
    cases q with
    | nil => exact orders_eq (by simp) (by simp at h2; omega)
    | cons c q => exact orders_gt (by have := lex_prefix ys [] (c :: q) (by simp); simpa using this) (by simp at h2; omega)
  · have k1 := hc x y
    have k2 := hc y x
    by_cases hlt : x < y
    · refine orders_lt ?_ (by rcases h4 with h4 | h4 <;> omega)
      rw [h1, h2]
      exact lex_prefix _ _ _ (by rw [List.cons_lt_cons_iff]; exact Or.inl hlt)
    · refine orders_gt ?_ (by rcases h4 with h4 | h4 <;> omega)
      rw [h1, h2]
      exact lex_prefix _ _ _ (by rw [List.cons_lt_cons_iff]; exact Or.inl (by omega))
  · exact absurd h1 hm

/-- Comparing two strings reports equality exactly for equal character sequences, for all representations, if the locale tells
different characters apart. -/
theorem C26_equal (coll : Nat → Nat → Int) (hc : Separates coll) (a b : S) (cs ds : List Nat) (ha : Rep a cs) (hb : Rep b ds) :
    ∃ r, compare coll a b = some r ∧ (r = 0 ↔ cs = ds) := by
  obtain ⟨r, e1, e2⟩ := compareSlice_spec coll a b cs ds ha hb 0 cs.length 0 ds.length (by omega) (Nat.le_refl _) (by omega) (Nat.le_refl _)
  refine ⟨r, by unfold Str.compare; rw [ha.len, hb.len]; exact e1, ?_⟩
  have := e2.zero hc
  simpa using this

/-- The same for parts of strings. -/
theorem C26_slices_equal (coll : Nat → Nat → Int) (hc : Separates coll) (a b : S) (cs ds : List Nat) (ha : Rep a cs) (hb : Rep b ds)
    (ab ae bb be : Int) (h1 : ab ≤ cs.length) (h2 : bb ≤ ds.length) :
    ∃ r, compareSlices coll a ab ae b bb be = some r ∧ (r = 0 ↔ ArrSpec.slice cs ab ae = ArrSpec.slice ds bb be) := by
  unfold compareSlices
  rw [ha.len, hb.len]
  obtain ⟨p1, p2, p3, p4, p5⟩ := Str.range_spec cs.length ab ae
  obtain ⟨q1, q2, q3, q4, q5⟩ := Str.range_spec ds.length bb be
  have key : ∀ (n : Nat) (b e : Int), b ≤ n → (Str.range n b e).2.toNat ≤ n := by
    intro n b e hb
    obtain ⟨r1, r2, r3, r4, r5⟩ := Str.range_spec n b e
    by_cases h : b < 0
    · rw [if_pos h] at r4
      by_cases h' : e < 0
      · rw [if_pos h'] at r5; omega
      · rw [if_neg h'] at r5; omega
    · rw [if_neg h] at r4
      by_cases h' : e < 0
      · rw [if_pos h'] at r5; omega
      · rw [if_neg h'] at r5; omega
  obtain ⟨r, e1, e2⟩ := compareSlice_spec coll a b cs ds ha hb (Str.range cs.length ab ae).1.toNat (Str.range cs.length ab ae).2.toNat
    (Str.range ds.length bb be).1.toNat (Str.range ds.length bb be).2.toNat (by omega) (key _ _ _ h1) (by omega) (key _ _ _ h2)
  refine ⟨r, e1, ?_⟩
  have := e2.zero hc
  rw [range_clamp, range_clamp] at this
  exact this

/-- `starts_with` and `ends_with`. -/
theorem C26_starts_ends (coll : Nat → Nat → Int) (hc : Separates coll) (a b : S) (cs ds : List Nat) (ha : Rep a cs) (hb : Rep b ds) :
    (∃ r, startsWith coll a b = some r ∧ (r = true ↔ ds <+: cs)) ∧ (∃ r, endsWith coll a b = some r ∧ (r = true ↔ ds <:+ cs)) := by
  unfold startsWith endsWith
  rw [ha.len, hb.len]
  by_cases hl : ds.length > cs.length
  · rw [if_pos hl, if_pos hl]
    refine ⟨⟨false, rfl, ?_⟩, ⟨false, rfl, ?_⟩⟩
    · simp only [Bool.false_eq_true, false_iff]
      intro h; have := h.length_le; omega
    · simp only [Bool.false_eq_true, false_iff]
      intro h; have := h.length_le; omega
  · rw [if_neg hl, if_neg hl]
    have full : ArrSpec.slice ds 0 ds.length = ds := by
      simp only [ArrSpec.slice, ArrSpec.clamp]
      rw [if_neg (by omega), if_neg (by omega)]
      rw [List.take_of_length_le (by omega)]; rfl
    constructor
    · obtain ⟨r, e1, e2⟩ := C26_slices_equal coll hc a b cs ds ha hb 0 ds.length 0 ds.length (by omega) (by omega)
      rw [e1]
      refine ⟨_, rfl, ?_⟩
      rw [full] at e2
      have : ArrSpec.slice cs 0 ds.length = cs.take ds.length := by
        simp only [ArrSpec.slice, ArrSpec.clamp]
        rw [if_neg (by omega), if_neg (by omega)]
        simp only [Int.toNat_zero, List.drop_zero, Nat.zero_min]
        congr 1; omega
      rw [this] at e2
      rw [beq_iff_eq, e2, List.prefix_iff_eq_take]
      exact eq_comm
    · obtain ⟨r, e1, e2⟩ := C26_slices_equal coll hc a b cs ds ha hb ((cs.length : Int) - ds.length) cs.length 0 ds.length (by omega) (by omega)
      rw [e1]
      refine ⟨_, rfl, ?_⟩
      rw [full] at e2
      have : ArrSpec.slice cs ((cs.length : Int) - ds.length) cs.length = cs.drop (cs.length - ds.length) := by
        simp only [ArrSpec.slice, ArrSpec.clamp]
        rw [if_neg (by omega), if_neg (by omega), List.take_of_length_le (by omega)]
        congr 1; omega
      rw [this] at e2
      rw [beq_iff_eq, e2, List.suffix_iff_eq_drop]
      exact eq_comm

/-- The full claim about order, for the "C" locale. -/
def C26_order_full : Prop :=
  ∀ (coll : Nat → Nat → Int), ByCode coll → ∀ (a b : S) (cs ds : List Nat), Rep a cs → Rep b ds →
    ∃ r, compare coll a b = some r ∧ Orders r cs ds

/-- In the "C" locale the comparison is the lexicographic order by code point, unless both strings are 16-bit or both are 32-bit
strings and both start in the middle of an 8-byte word (which happens to slices only). -/
theorem C26_order_partial (coll : Nat → Nat → Int) (hc : ByCode coll) (a b : S) (cs ds : List Nat) (ha : Rep a cs) (hb : Rep b ds)
    (hal : a.width = .w8 ∨ a.width ≠ b.width ∨ a.addr % 8 = 0 ∨ b.addr % 8 = 0) :
    ∃ r, compare coll a b = some r ∧ Orders r cs ds := by
  obtain ⟨r, e1, e2⟩ := compareSlice_spec coll a b cs ds ha hb 0 cs.length 0 ds.length (by omega) (Nat.le_refl _) (by omega) (Nat.le_refl _)
  refine ⟨r, by unfold Str.compare; rw [ha.len, hb.len]; exact e1, ?_⟩
  have := cmpRes_orders hc (by
    rintro ⟨m1, m2, m3, m4⟩
    rcases hal with h | h | h | h
    · exact m2 h
    · exact h m1
    · exact m3 (by simpa using h)
    · exact m4 (by simpa using h)) e2
  simpa using this

/-- The order is total and transitive: a consequence for three strings. -/
theorem C26_transitive_partial (coll : Nat → Nat → Int) (hc : ByCode coll) (a b c : S) (cs ds es : List Nat) (ha : Rep a cs)
    (hb : Rep b ds) (hd : Rep c es) (h1 : a.addr % 8 = 0) (h2 : b.addr % 8 = 0) (hab : ∃ r, compare coll a b = some r ∧ r < 0)
    (hbc : ∃ r, compare coll b c = some r ∧ r < 0) : ∃ r, compare coll a c = some r ∧ r < 0 := by
  obtain ⟨r, e1, e2⟩ := C26_order_partial coll hc a b cs ds ha hb (Or.inr (Or.inr (Or.inl h1)))
  obtain ⟨q, f1, f2⟩ := C26_order_partial coll hc b c ds es hb hd (Or.inr (Or.inr (Or.inl h2)))
  obtain ⟨t, g1, g2⟩ := C26_order_partial coll hc a c cs es ha hd (Or.inr (Or.inr (Or.inl h1)))
  obtain ⟨r', e3, e4⟩ := hab
  obtain ⟨q', f3, f4⟩ := hbc
  rw [e1, Option.some.injEq] at e3
  rw [f1, Option.some.injEq] at f3
  subst e3; subst f3
  exact ⟨t, g1, g2.lt.mpr (List.lt_trans (e2.lt.mp e4) (f2.lt.mp f4))⟩

/-- Slices of two strings, starting at the second character.  The first characters are U+100 and U+200, so the first slice
is less. -/
def sliceOf (l : List Int) : Out S :=
  match fromCodes ⟨true, 0, fun _ => 0⟩ l with
  | .ok s => slice ⟨true, 0, fun _ => 0⟩ s 1 100
  | o => o

def exA : List Int := [65, 0x100, 0x102, 65, 65, 65, 65, 65, 65, 65, 65]
def exB : List Int := [65, 0x200, 0x101, 65, 65, 65, 65, 65, 65, 65, 65]

/-- The code violates it: the leading loop compares single bytes and may stop in the middle of a character
(core/kos_string.c:1135); then characters made of the wrong bytes are compared. -/
theorem C26_misaligned_violated :
    ∃ a b, sliceOf exA = .ok a ∧ sliceOf exB = .ok b ∧ (exA.drop 1).map Int.toNat < (exB.drop 1).map Int.toNat ∧
      Str.compare (fun x y => (x : Int) - y) a b = some (513 - 258 : Int) := by
  refine ⟨⟨.w16, false, .ref, 10, 0, 2, [0, 1, 2, 1, 65, 0, 65, 0, 65, 0, 65, 0, 65, 0, 65, 0, 65, 0, 65, 0]⟩,
    ⟨.w16, false, .ref, 10, 0, 2, [0, 2, 1, 1, 65, 0, 65, 0, 65, 0, 65, 0, 65, 0, 65, 0, 65, 0, 65, 0]⟩, ?_, ?_, ?_, ?_⟩
  · decide +kernel
  · decide +kernel
  · decide
  · decide +kernel

theorem byCode_sub : ByCode (fun x y => (x : Int) - y) := by
  intro x y
  show ((x : Int) - y < 0 ↔ x < y) ∧ (0 < (x : Int) - y ↔ y < x)
  constructor
  · constructor <;> intro h <;> omega
  · constructor <;> intro h <;> omega

theorem C26_order_violated : ¬ C26_order_full := by
  intro h
  obtain ⟨a, b, ea, eb, hlt, hr⟩ := C26_misaligned_violated
  have rep : ∀ l : List Int, l.length ≤ 65535 → (∀ c ∈ l, 0 ≤ c ∧ c ≤ 0x1FFFFF) → 0 < l.length → l.length ≤ 100 → ∀ r, sliceOf l = .ok r →
      Rep r ((l.drop 1).map Int.toNat) := by
    intro l h1 h2 h3 h4 r hr
    rcases (fromCodes_spec ⟨true, 0, fun _ => 0⟩ l).2.2 h1 h2 with ⟨s, e1, e2⟩ | ⟨_, e⟩
    · unfold sliceOf at hr
      rw [e1] at hr
      rcases slice_spec ⟨true, 0, fun _ => 0⟩ s _ 1 100 e2 with ⟨r', f1, f2⟩ | ⟨_, f⟩
      · simp only at hr
        rw [f1] at hr
        injection hr with hr
        subst hr
        rw [range_clamp] at f2
        have : ArrSpec.slice (l.map Int.toNat) 1 100 = (l.drop 1).map Int.toNat := by
          simp only [ArrSpec.slice, ArrSpec.clamp, List.length_map]
          rw [if_neg (by omega), if_neg (by omega), List.take_of_length_le (by rw [List.length_map]; omega), ← List.map_drop]
          have : min (1 : Int).toNat l.length = 1 := by omega
          rw [this]
        rw [this] at f2
        exact f2
      · exact absurd f (by simp)
    · exact absurd e (by simp)
  obtain ⟨r, e1, e2⟩ := h _ byCode_sub a b _ _ (rep exA (by decide) (by decide) (by decide) (by decide) a ea)
    (rep exB (by decide) (by decide) (by decide) (by decide) b eb)
  rw [hr, Option.some.injEq] at e1
  have := e2.lt.mpr hlt
  omega

/-- In a locale which does not tell two characters apart, different strings are equal (`interpreter/kos.c:101` sets the locale of
the user). -/
theorem C26_locale_violated (coll : Nat → Nat → Int) (x y : Nat) (hx : x < 0x200000) (hy : y < 0x200000) (hxy : x ≠ y) (h1 : coll x y = 0)
    (h2 : coll y x = 0) : ∃ a b, Rep a [x] ∧ Rep b [y] ∧ compare coll a b = some 0 := by
  have rep : ∀ z, z < 0x200000 → Rep ⟨.w32, false, .inObj, 1, 0, 0, leBytes 4 z⟩ [z] := by
    intro z hz
    refine ⟨rfl, by simp, ⟨[], by simp [enc_cons, enc_nil, Width.bytes]⟩, ?_, by simp, rfl, Or.inl rfl⟩
    intro c hc
    rw [List.mem_singleton] at hc
    subst hc
    simp only [Width.bytes]; omega
  refine ⟨_, _, rep x hx, rep y hy, ?_⟩
  obtain ⟨r, e1, e2⟩ := compareSlice_spec coll _ _ _ _ (rep x hx) (rep y hy) 0 1 0 1 (by omega) (by simp) (by omega) (by simp)
  have : r = 0 := by
    rcases e2 with ⟨_, e2⟩ | ⟨u, v, ⟨p, s, t, f1, f2, f3⟩, e2⟩ | ⟨⟨_, _, c, _⟩, _⟩
    · simp at e2; exact e2
    · cases p with
      | nil =>
        simp at f1 f2
        rw [← f1.1, ← f2.1, h1, h2] at e2
        rcases e2 with e2 | e2 <;> omega
      | cons q p => simp at f1
    · simp at c
  unfold Str.compare
  rw [← this]
  exact e1

/-- 8-bit against 16-bit and 32-bit strings, and two strings with a difference after two words. -/
example :
    let c : Nat → Nat → Int := fun x y => (x : Int) - y
    compare c ⟨.w8, true, .inObj, 2, 0, 0, [97, 98]⟩ ⟨.w16, false, .ref, 2, 0, 2, [97, 0, 0, 1]⟩ = some (98 - 256) ∧
    compare c ⟨.w32, false, .inObj, 1, 0, 0, [0, 0, 1, 0]⟩ ⟨.w8, true, .inObj, 0, 0, 0, []⟩ = some 1 ∧
    compare c ⟨.w8, false, .ref, 20, 0, 3, [1,2,3,4,5,6,7,8,9,10,11,12,13,14,15,16,17,18,19,21]⟩
      ⟨.w8, false, .ref, 20, 0, 11, [1,2,3,4,5,6,7,8,9,10,11,12,13,14,15,16,17,18,19,20]⟩ = some 1 ∧
    endsWith c ⟨.w8, true, .inObj, 3, 0, 0, [97, 98, 99]⟩ ⟨.w32, false, .inObj, 2, 0, 0, [98, 0, 0, 0, 99, 0, 0, 0]⟩ = some true ∧
    startsWith c ⟨.w8, true, .inObj, 3, 0, 0, [97, 98, 99]⟩ ⟨.w8, true, .ptr, 2, 0, 1, [97, 99]⟩ = some false := by
  decide +kernel

end Verif.Props
