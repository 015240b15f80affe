import Verif.Lexer.TokenLemmas
import Verif.Utf8.Concat
import Verif.Compiler.StrLit
import Verif.Quote.Lemmas
import Verif.Props.C06
/-
C51: every string literal which the lexer accepts denotes a string: creating the string from its text does not fail.
-/
namespace Verif.Props
open Verif.Utf8 Verif.Lexer Verif.Compiler Verif.Quote

namespace C51
/-- The text is accepted by the scan with escapes. -/
def Scans (s : List Nat) : Prop := ∃ n m, slowLoop true (s.length + 1) 0 0 s = .ok (n, m)

theorem scans_nil : Scans [] := ⟨0, 0, rfl⟩

theorem scans_append (a b : List Nat) (ha : Scans a) (hb : Scans b) : Scans (a ++ b) := by
  obtain ⟨n1, m1, h1⟩ := ha
  obtain ⟨n2, m2, h2⟩ := hb
  have k1 := slow_append true b _ 0 0 0 0 a n1 m1 h1 (Nat.lt_succ_self _)
  have k2 := slow_append true [] _ 0 0 m1 n1 b n2 m2 h2 (Nat.lt_succ_self _)
  simp only [Nat.add_zero, Nat.zero_add, Nat.max_zero, Nat.zero_max, List.append_nil] at k1 k2
  exact ⟨n1 + n2, max m1 m2, by rw [k1, k2]; rfl⟩

theorem scans_one (s : List Nat) (h0 : s ≠ []) (m : Nat) (h : scanChar true 0 s = .ok (m, [])) : Scans s := by
  refine ⟨1, m, ?_⟩
  rw [slowLoop, if_neg h0, h]
  obtain ⟨x, t, rfl⟩ := List.exists_cons_of_ne_nil h0
  rfl

theorem scans_plain (c : Nat) (h : c < 0x80) (h' : c ≠ 92) : Scans [c] :=
  scans_one [c] (by simp) 0 (scanChar_plain true 0 c [] ⟨h, fun _ => h'⟩)

theorem scans_utf8 (c : Nat) (h : c < 2097152) (h' : c ≠ 92) : Scans (utf8 c) := by
  by_cases h1 : c < 0x80
  · rw [utf8_1 c h1]; exact scans_plain c h1 h'
  · obtain ⟨b, s, e, hb, h0, hl, hc⟩ := utf8_multi c h (by omega) []
    rw [List.append_nil] at e
    have hne := utf8_ne_nil c
    apply scans_one (utf8 c) (by intro h0; rw [h0] at hne; simp at hne) (if c > 0 then c else 0)
    rw [e, scanChar_cons, if_neg (by omega), if_neg (by omega), hc]
    simp only [scanTail]
    rw [if_neg (by simp; omega)]

theorem scans_escape (p : List Nat) (c : Nat) (h : parseEsc p = .ok (.code c, [])) : Scans (92 :: p) := by
  apply scans_one (92 :: p) (by simp) (if c > 0 then c else 0)
  rw [scanChar_cons, if_pos (by omega), scanTail, if_pos ⟨rfl, rfl⟩, h]

theorem scans_notEsc (c : Nat) (rest : List Nat) (h : escMap c = .invalid) (hs : Scans (c :: rest)) :
    Scans (92 :: c :: rest) := by
  obtain ⟨n, m, hs⟩ := hs
  have hp : parseEsc (c :: rest) = .ok (.notEsc, c :: rest) := by simp only [parseEsc, h]
  have hc : scanChar true 0 (92 :: c :: rest) = .ok (0, c :: rest) := by
    rw [scanChar_cons, if_pos (by omega), scanTail, if_pos ⟨rfl, rfl⟩, hp]
  have k := slow_append true [] _ 0 0 0 1 (c :: rest) n m hs (Nat.lt_succ_self _)
  simp only [Nat.add_zero, Nat.zero_add, Nat.max_zero, Nat.zero_max, List.append_nil] at k
  refine ⟨1 + n, m, ?_⟩
  rw [slowLoop, if_neg (by simp), hc]
  exact k

theorem flat_ascii (codes : List Nat) (x : Nat) (t : List Nat) (h : codes.flatMap utf8 = x :: t) (hx : x < 0x80) :
    ∃ cs, codes = x :: cs ∧ t = cs.flatMap utf8 := by
  cases codes with
  | nil => cases h
  | cons c cs =>
    rw [List.flatMap_cons] at h
    by_cases hc : c < 0x80
    · rw [utf8_1 c hc] at h
      injection h with h1 h2
      exact ⟨cs, by rw [h1], h2.symm⟩
    · exfalso
      by_cases h2 : c < 0x800
      · rw [utf8_2 c (by omega) h2] at h; injection h with h1 h2; omega
      · by_cases h3 : c < 0x10000
        · rw [utf8_3 c (by omega) h3] at h; injection h with h1 h2; omega
        · rw [utf8_4 c (by omega)] at h; injection h with h1 h2; omega

/-! ### A whole character is prefetched -/

def plainType (t : LT) : Prop := t ≠ .eof ∧ t ≠ .invalidUtf8 ∧ t ≠ .string ∧ t ≠ .backslash ∧ t ≠ .eol

theorem tail_type (x : Nat) (h : x < 64) : lexemType (128 + x) = .utf8Tail := by
  have : ∀ x : Fin 64, lexemType (128 + x.val) = .utf8Tail := by decide +kernel
  exact this ⟨x, h⟩

theorem lead_type (x : Nat) (h : x < 256) : (194 ≤ x ∧ x ≤ 223 → lexemType x = .utf8Two) ∧
    (224 ≤ x ∧ x ≤ 239 → lexemType x = .utf8Three) ∧ (240 ≤ x ∧ x ≤ 247 → lexemType x = .utf8Four) := by
  have : ∀ x : Fin 256, (194 ≤ x.val ∧ x.val ≤ 223 → lexemType x.val = .utf8Two) ∧
    (224 ≤ x.val ∧ x.val ≤ 239 → lexemType x.val = .utf8Three) ∧ (240 ≤ x.val ∧ x.val ≤ 247 → lexemType x.val = .utf8Four) := by
    decide +kernel
  exact this ⟨x, h⟩

theorem tails_good (l rest : List Nat) (h : ∀ b ∈ l, lexemType b = .utf8Tail) : ∀ code,
    ∃ code', tails l.length code (l ++ rest) = (true, code', rest) := by
  induction l with
  | nil => intro code; exact ⟨code, rfl⟩
  | cons b l ih =>
    intro code
    rw [List.length_cons, List.cons_append, tails, if_neg (by simp [h b (by simp)])]
    exact ih (fun x hx => h x (by simp [hx])) _

theorem prefetch_multi (b : Nat) (l rest : List Nat) (t : LT) (hb : lexemType b = t) (hm : t.multi = l.length + 1)
    (ht : t ≠ .utf8Tail) (hp : plainType t) (h : ∀ x ∈ l, lexemType x = .utf8Tail) :
    ∃ t', prefetch (b :: (l ++ rest)) = (t', rest) ∧ plainType t' := by
  simp only [prefetch, hb]
  rw [if_neg ht, if_pos (by omega), if_neg (by rw [hm]; simp)]
  rw [hm]
  obtain ⟨code', e⟩ := tails_good l rest h (((b <<< (l.length + 1)) &&& 0xFF) >>> (l.length + 1))
  rw [show l.length + 1 - 1 = l.length by omega, e]
  simp only [if_true]
  refine ⟨_, rfl, ?_⟩
  split
  · exact ⟨by decide, by decide, by decide, by decide, by decide⟩
  · exact hp

theorem prefetch_utf8 (c : Nat) (h : c < 2097152) (h8 : 0x80 ≤ c) (rest : List Nat) :
    ∃ t, prefetch (utf8 c ++ rest) = (t, rest) ∧ plainType t := by
  by_cases h2 : c < 0x800
  · rw [utf8_2 c h8 h2]
    refine prefetch_multi (192 + c / 64) [128 + c % 64] rest .utf8Two ((lead_type _ (by omega)).1 (by omega)) rfl (by decide)
      ⟨by decide, by decide, by decide, by decide, by decide⟩ ?_
    intro x hx; simp only [List.mem_singleton] at hx; subst hx; exact tail_type _ (by omega)
  · by_cases h3 : c < 0x10000
    · rw [utf8_3 c (by omega) h3]
      refine prefetch_multi (224 + c / 4096) [128 + c / 64 % 64, 128 + c % 64] rest .utf8Three
        ((lead_type _ (by omega)).2.1 (by omega)) rfl (by decide) ⟨by decide, by decide, by decide, by decide, by decide⟩ ?_
      intro x hx
      simp only [List.mem_cons, List.not_mem_nil, or_false] at hx
      rcases hx with rfl | rfl <;> exact tail_type _ (by omega)
    · rw [utf8_4 c (by omega)]
      refine prefetch_multi (240 + c / 262144) [128 + c / 4096 % 64, 128 + c / 64 % 64, 128 + c % 64] rest .utf8Four
        ((lead_type _ (by omega)).2.2 (by omega)) rfl (by decide) ⟨by decide, by decide, by decide, by decide, by decide⟩ ?_
      intro x hx
      simp only [List.mem_cons, List.not_mem_nil, or_false] at hx
      rcases hx with rfl | rfl | rfl <;> exact tail_type _ (by omega)

/-! ### Escapes -/

theorem hex_value (x : Nat) (h : charIsHex x = true) : hexMap x < 16 ∧ x ≠ 125 ∧ x < 128 ∧ x ≠ 13 ∧ x ≠ 123 := by
  by_cases hx : x < 128
  · have : ∀ x : Fin 128, charIsHex x.val = true → hexMap x.val < 16 ∧ x.val ≠ 125 ∧ x.val < 128 ∧ x.val ≠ 13 ∧ x.val ≠ 123 := by
      decide +kernel
    exact this ⟨x, hx⟩ h
  · simp only [charIsHex, Bool.or_eq_true, Bool.and_eq_true, decide_eq_true_eq] at h; omega

theorem hexBraces_text : ∀ f count b n e, hexBraces f count b = .ok (n, e) →
    ∃ ds, b = ds ++ 125 :: e ∧ n = count + ds.length ∧ ∀ d ∈ ds, charIsHex d = true := by
  intro f
  induction f with
  | zero => intro count b n e h; simp [hexBraces] at h
  | succ f ih =>
    intro count b n e h
    rw [hexBraces] at h
    cases b with
    | nil => simp at h
    | cons x t =>
      simp only at h
      by_cases hx : x = 125
      · subst hx
        rw [prefetch_ascii 125 t (by omega) (by omega), if_pos rfl] at h
        simp only [Res.ok.injEq, Prod.mk.injEq] at h
        exact ⟨[], by rw [h.2]; rfl, by simp; omega, by simp⟩
      · rw [if_neg hx] at h
        cases hh : charIsHex x with
        | false => rw [hh] at h; simp at h
        | true =>
          obtain ⟨_, _, h3, h4, _⟩ := hex_value x hh
          rw [hh, prefetch_ascii x t h3 h4] at h
          simp only [Bool.not_true, Bool.false_eq_true, if_false] at h
          obtain ⟨ds, e1, e2, e3⟩ := ih _ _ _ _ h
          refine ⟨x :: ds, by rw [e1]; rfl, by simp; omega, ?_⟩
          intro d hd
          rcases List.mem_cons.mp hd with rfl | hd
          · exact hh
          · exact e3 d hd

theorem escBraces_text : ∀ (ds : List Nat) (g k : Nat), (∀ d ∈ ds, charIsHex d = true) → g < 16 ^ k → k + ds.length ≤ 6 →
    ∃ c, escBraces g (ds ++ [125]) = .ok (.code c, []) := by
  intro ds
  induction ds with
  | nil => intro g k _ _ _; exact ⟨g, rfl⟩
  | cons d ds ih =>
    intro g k h hg hk
    obtain ⟨h1, h2, _⟩ := hex_value d (h d (by simp))
    rw [List.cons_append, escBraces, if_neg h2, if_neg (by simp), if_neg (by omega)]
    have hstep : g * 16 + hexMap d < 16 ^ (k + 1) := by rw [Nat.pow_succ]; omega
    have hle : 16 ^ (k + 1) ≤ 16 ^ 6 := Nat.pow_le_pow_right (by decide) (by simp at hk; omega)
    have h6 : (16 : Nat) ^ 6 = 16777216 := rfl
    rw [if_neg (by omega)]
    exact ih _ (k + 1) (fun x hx => h x (by simp [hx])) hstep (by simp at hk; omega)

theorem escMap_inv (c : Nat) (h : c < 0x80) : (escMap c = .interpolate → c = 40) ∧ (escMap c = .hex → c = 120) := by
  have : ∀ c : Fin 128, (escMap c.val = .interpolate → c.val = 40) ∧ (escMap c.val = .hex → c.val = 120) := by decide +kernel
  exact this ⟨c, h⟩

/-- The bytes of an escape, split from text that is well-formed UTF-8. -/
theorem escape_text (codes : List Nat) (hc : ∀ c ∈ codes, c < 2097152) (e : List Nat) (fmt : Bool)
    (h : collectEscape (codes.flatMap utf8) = .ok (e, fmt)) :
    (fmt = true ∧ ∃ cs, codes = 40 :: cs ∧ e = cs.flatMap utf8) ∨
    (fmt = false ∧ ∃ ps cs, codes = ps ++ cs ∧ e = cs.flatMap utf8 ∧ ps ≠ [] ∧ Scans (92 :: ps.flatMap utf8)) := by
  cases codes with
  | nil => simp [collectEscape] at h
  | cons c cs =>
    have hc0 : c < 2097152 := hc c (by simp)
    by_cases h8 : 0x80 ≤ c
    · -- a backslash before a multi-byte character
      right
      obtain ⟨t, hp, _⟩ := prefetch_utf8 c hc0 h8 (cs.flatMap utf8)
      obtain ⟨b, s, he, hb, _⟩ := utf8_multi c hc0 h8 []
      rw [List.append_nil] at he
      have hm : escMap b = .invalid := by
        unfold escMap
        rw [if_neg (by omega), if_neg (by omega), if_neg (by omega), if_neg (by omega), if_neg (by omega), if_neg (by omega),
          if_neg (by omega), if_neg (by omega), if_neg (by omega), if_neg (by omega), if_neg (by omega), if_neg (by omega)]
      rw [List.flatMap_cons] at h
      unfold collectEscape at h
      rw [hp] at h
      rw [he, List.cons_append] at h
      simp only [hm, Res.ok.injEq, Prod.mk.injEq] at h
      refine ⟨h.2.symm, [c], cs, rfl, h.1.symm, by simp, ?_⟩
      have hs := scans_utf8 c hc0 (by omega)
      simp only [List.flatMap_cons, List.flatMap_nil, List.append_nil]
      rw [he] at hs ⊢
      exact scans_notEsc b s hm hs
    · have h8' : c < 0x80 := by omega
      rw [List.flatMap_cons, utf8_1 c h8', List.cons_append, List.nil_append] at h
      unfold collectEscape at h
      simp only at h
      cases hm : escMap c with
      | invalid =>
        right
        rw [hm] at h
        simp only [Res.ok.injEq, Prod.mk.injEq] at h
        have h92 : c ≠ 92 := by rintro rfl; cases hm
        have s1 : Scans [92, c] := scans_notEsc c [] hm (scans_plain c h8' h92)
        by_cases h13 : c = 13
        · subst h13
          rw [prefetch_13] at h
          simp only at h
          by_cases h10 : (cs.flatMap utf8).head? = some 10
          · rw [if_pos h10] at h
            obtain ⟨t, ht⟩ : ∃ t, cs.flatMap utf8 = 10 :: t := by
              cases hcs : cs.flatMap utf8 with
              | nil => rw [hcs] at h10; simp at h10
              | cons y t => rw [hcs] at h10; simp at h10; exact ⟨t, by rw [h10]⟩
            obtain ⟨cs', e1, e2⟩ := flat_ascii cs 10 t ht (by omega)
            refine ⟨h.2.symm, [13, 10], cs', by rw [e1]; rfl, ?_, by simp, ?_⟩
            · rw [← h.1, ht, e2]; rfl
            · exact scans_append [92, 13] [10] s1 (scans_plain 10 (by omega) (by omega))
          · rw [if_neg h10] at h
            refine ⟨h.2.symm, [13], cs, rfl, h.1.symm, by simp, s1⟩
        · rw [prefetch_ascii c _ h8' h13] at h
          refine ⟨h.2.symm, [c], cs, rfl, h.1.symm, by simp, ?_⟩
          simp only [List.flatMap_cons, List.flatMap_nil, List.append_nil, utf8_1 c h8']
          exact s1
      | interpolate =>
        left
        rw [hm] at h
        have h40 : c = 40 := (escMap_inv c h8').1 hm
        subst h40
        rw [prefetch_ascii 40 _ (by omega) (by omega)] at h
        simp only [Res.ok.injEq, Prod.mk.injEq] at h
        exact ⟨h.2.symm, cs, rfl, h.1.symm⟩
      | zero =>
        right
        rw [hm] at h
        have h13 : c ≠ 13 := by rintro rfl; cases hm
        rw [prefetch_ascii c _ h8' h13] at h
        simp only [Res.ok.injEq, Prod.mk.injEq] at h
        refine ⟨h.2.symm, [c], cs, rfl, h.1.symm, by simp, ?_⟩
        simp only [List.flatMap_cons, List.flatMap_nil, List.append_nil, utf8_1 c h8']
        exact scans_escape [c] 0 (by simp only [parseEsc, hm])
      | char x =>
        right
        rw [hm] at h
        have h13 : c ≠ 13 := by rintro rfl; cases hm
        rw [prefetch_ascii c _ h8' h13] at h
        simp only [Res.ok.injEq, Prod.mk.injEq] at h
        refine ⟨h.2.symm, [c], cs, rfl, h.1.symm, by simp, ?_⟩
        simp only [List.flatMap_cons, List.flatMap_nil, List.append_nil, utf8_1 c h8']
        exact scans_escape [c] x (by simp only [parseEsc, hm])
      | hex =>
        right
        rw [hm] at h
        have h120 : c = 120 := (escMap_inv c h8').2 hm
        subst h120
        rw [prefetch_ascii 120 _ (by omega) (by omega)] at h
        simp only at h
        cases hcs : cs.flatMap utf8 with
        | nil => rw [hcs] at h; simp at h
        | cons y t =>
          rw [hcs] at h
          simp only at h
          by_cases hy : y = 123
          · subst hy
            rw [if_pos rfl, prefetch_ascii 123 t (by omega) (by omega)] at h
            simp only at h
            obtain ⟨cs1, e1, e2⟩ := flat_ascii cs 123 t hcs (by omega)
            cases hx : hexBraces (t.length + 1) 0 t with
            | err => rw [hx] at h; simp at h
            | ub => rw [hx] at h; simp at h
            | ok q =>
              obtain ⟨n, e'⟩ := q
              rw [hx] at h
              simp only at h
              split at h
              · cases h
              · split at h
                · cases h
                · simp only [Res.ok.injEq, Prod.mk.injEq] at h
                  obtain ⟨ds, f1, f2, f3⟩ := hexBraces_text _ _ _ _ _ hx
                  have strip : ∀ (l : List Nat) (codes r : List Nat), (∀ d ∈ l, d < 0x80) → codes.flatMap utf8 = l ++ r →
                      ∃ cs, codes = l ++ cs ∧ r = cs.flatMap utf8 := by
                    intro l
                    induction l with
                    | nil => intro codes r _ hr; exact ⟨codes, rfl, hr.symm⟩
                    | cons d l ih =>
                      intro codes r hl hr
                      obtain ⟨cs, g1, g2⟩ := flat_ascii codes d (l ++ r) hr (hl d (by simp))
                      obtain ⟨cs', g3, g4⟩ := ih cs r (fun x hx => hl x (by simp [hx])) g2.symm
                      exact ⟨cs', by rw [g1, g3]; rfl, g4⟩
                  obtain ⟨cs2, g1, g2⟩ := strip (ds ++ [125]) cs1 e' (by
                    intro d hd
                    rcases List.mem_append.mp hd with hd | hd
                    · exact (hex_value d (f3 d hd)).2.2.1
                    · simp at hd; omega) (by rw [← e2, f1]; simp)
                  refine ⟨h.2.symm, 120 :: 123 :: (ds ++ [125]), cs2, by rw [e1, g1]; simp, by rw [← h.1, g2], by simp, ?_⟩
                  have hflat : (120 :: 123 :: (ds ++ [125])).flatMap utf8 = 120 :: 123 :: (ds ++ [125]) :=
                    flatMap_ascii _ (by
                      intro d hd
                      simp only [List.mem_cons, List.mem_append, List.not_mem_nil, or_false] at hd
                      rcases hd with rfl | rfl | hd | rfl
                      · omega
                      · omega
                      · exact (hex_value d (f3 d hd)).2.2.1
                      · omega)
                  rw [hflat]
                  obtain ⟨c, hcode⟩ := escBraces_text ds 0 0 f3 (by decide) (by omega)
                  apply scans_escape _ c
                  cases ds with
                  | nil => simp at f2; omega
                  | cons d ds =>
                    rw [List.cons_append, parseEsc_x, if_pos ⟨rfl, (hex_value d (f3 d (by simp))).2.1⟩]
                    exact hcode
          · rw [if_neg hy] at h
            by_cases hyh : charIsHex y = true
            · obtain ⟨y1, y2, y3, y4, y5⟩ := hex_value y hyh
              obtain ⟨cs1, e1, e2⟩ := flat_ascii cs y t hcs y3
              rw [if_pos hyh, prefetch_ascii y t y3 y4] at h
              simp only at h
              cases ht : t with
              | nil => rw [ht] at h; simp at h
              | cons z t2 =>
                rw [ht] at h
                simp only at h
                by_cases hz : charIsHex z = true
                · obtain ⟨z1, z2, z3, z4, z5⟩ := hex_value z hz
                  obtain ⟨cs2, e3, e4⟩ := flat_ascii cs1 z t2 (by rw [← e2, ht]) z3
                  rw [hz, prefetch_ascii z t2 z3 z4] at h
                  simp only [Bool.not_true, Bool.false_eq_true, if_false, Res.ok.injEq, Prod.mk.injEq] at h
                  refine ⟨h.2.symm, [120, y, z], cs2, by rw [e1, e3]; rfl, by rw [← h.1, e4], by simp, ?_⟩
                  have hflat : ([120, y, z] : List Nat).flatMap utf8 = [120, y, z] := flatMap_ascii _ (by
                    intro d hd
                    simp only [List.mem_cons, List.not_mem_nil, or_false] at hd
                    omega)
                  rw [hflat]
                  apply scans_escape _ (hexMap y * 16 + hexMap z)
                  rw [parseEsc_x, if_neg (by omega), if_pos ⟨z1, y1⟩]
                · simp [hz] at h
            · rw [if_neg hyh] at h; cases h

/-! ### Whole literals -/

theorem string_text : ∀ f (codes : List Nat), (∀ c ∈ codes, c < 2097152) → ∀ e,
    collectString f (codes.flatMap utf8) = .ok e →
    ∃ body cs, Scans (body.flatMap utf8) ∧ e = cs.flatMap utf8 ∧ (codes = body ++ 34 :: cs ∨ codes = body ++ 92 :: 40 :: cs) := by
  intro f
  induction f with
  | zero => intro codes _ e h; simp [collectString] at h
  | succ f ih =>
    intro codes hc e h
    cases codes with
    | nil => simp [collectString, prefetch] at h
    | cons c cs =>
      have hc0 : c < 2097152 := hc c (by simp)
      have hcs : ∀ x ∈ cs, x < 2097152 := fun x hx => hc x (by simp [hx])
      rw [collectString] at h
      by_cases h8 : 0x80 ≤ c
      · obtain ⟨t, hp, t1, t2, t3, t4, t5⟩ := prefetch_utf8 c hc0 h8 (cs.flatMap utf8)
        rw [List.flatMap_cons, hp] at h
        simp only at h
        rw [if_neg t1, if_neg t2, if_neg t3, if_neg t4, if_neg t5] at h
        obtain ⟨body, cs', s1, s2, s3⟩ := ih cs hcs e h
        refine ⟨c :: body, cs', ?_, s2, ?_⟩
        · rw [List.flatMap_cons]; exact scans_append _ _ (scans_utf8 c hc0 (by omega)) s1
        · rcases s3 with s3 | s3
          · left; rw [s3]; rfl
          · right; rw [s3]; rfl
      · have h8' : c < 0x80 := by omega
        rw [List.flatMap_cons, utf8_1 c h8', List.cons_append, List.nil_append] at h
        obtain ⟨_, _, l1, l2, l3, l4, l5⟩ := lexemType_ascii c h8'
        by_cases h13 : c = 13
        · subst h13
          rw [prefetch_13] at h
          simp only at h
          rw [if_neg (by decide), if_neg (by decide), if_neg (by decide), if_neg (by decide), if_pos trivial] at h
          cases h
        · rw [prefetch_ascii c _ h8' h13] at h
          simp only at h
          rw [if_neg l1, if_neg l2] at h
          by_cases h34 : lexemType c = .string
          · rw [if_pos h34] at h
            have := l4.mp h34
            injection h with h
            exact ⟨[], cs, scans_nil, h.symm, Or.inl (by rw [this]; rfl)⟩
          · rw [if_neg h34] at h
            by_cases h92 : lexemType c = .backslash
            · rw [if_pos h92] at h
              have hc92 := l5.mp h92
              cases hx : collectEscape (cs.flatMap utf8) with
              | err => rw [hx] at h; cases h
              | ub => rw [hx] at h; cases h
              | ok q =>
                obtain ⟨e', fmt⟩ := q
                rw [hx] at h
                simp only at h
                rcases escape_text cs hcs e' fmt hx with ⟨g1, cs', g2, g3⟩ | ⟨g1, ps, cs', g2, g3, g4, g5⟩
                · rw [g1, if_pos rfl] at h
                  injection h with h
                  exact ⟨[], cs', scans_nil, by rw [← h, g3], Or.inr (by rw [hc92, g2]; rfl)⟩
                · rw [g1, if_neg (by simp), g3] at h
                  obtain ⟨body, cs2, s1, s2, s3⟩ := ih cs' (fun x hx => hcs x (by rw [g2]; simp [hx])) e h
                  refine ⟨92 :: (ps ++ body), cs2, ?_, s2, ?_⟩
                  · rw [List.flatMap_cons, List.flatMap_append, utf8_1 92 (by omega), List.cons_append, List.nil_append,
                      ← List.cons_append]
                    exact scans_append _ _ g5 s1
                  · rcases s3 with s3 | s3
                    · left; rw [hc92, g2, s3]; simp
                    · right; rw [hc92, g2, s3]; simp
            · rw [if_neg h92] at h
              split at h
              · cases h
              · obtain ⟨body, cs', s1, s2, s3⟩ := ih cs hcs e h
                refine ⟨c :: body, cs', ?_, s2, ?_⟩
                · rw [List.flatMap_cons]
                  exact scans_append _ _ (scans_utf8 c hc0 (fun h => h92 (l5.mpr h))) s1
                · rcases s3 with s3 | s3
                  · left; rw [s3]; rfl
                  · right; rw [s3]; rfl

/-- One prefetch on well-formed text: the end, or one character (or the two of a CR LF). -/
theorem prefetch_codes (codes : List Nat) (hc : ∀ c ∈ codes, c < 2097152) (hne : codes ≠ []) :
    ∃ ps cs, codes = ps ++ cs ∧ ps ≠ [] ∧ (prefetch (codes.flatMap utf8)).2 = cs.flatMap utf8 ∧
      ((prefetch (codes.flatMap utf8)).1 = .string → ps = [34]) := by
  cases codes with
  | nil => exact absurd rfl hne
  | cons c cs =>
    have hc0 : c < 2097152 := hc c (by simp)
    by_cases h8 : 0x80 ≤ c
    · obtain ⟨t, hp, t1, t2, t3, t4, t5⟩ := prefetch_utf8 c hc0 h8 (cs.flatMap utf8)
      refine ⟨[c], cs, rfl, by simp, ?_, ?_⟩
      · rw [List.flatMap_cons, hp]
      · rw [List.flatMap_cons, hp]; intro h; exact absurd h t3
    · have h8' : c < 0x80 := by omega
      rw [List.flatMap_cons, utf8_1 c h8', List.cons_append, List.nil_append]
      obtain ⟨_, _, l1, l2, l3, l4, l5⟩ := lexemType_ascii c h8'
      by_cases h13 : c = 13
      · subst h13
        rw [prefetch_13]
        simp only
        by_cases h10 : (cs.flatMap utf8).head? = some 10
        · rw [if_pos h10]
          obtain ⟨t, ht⟩ : ∃ t, cs.flatMap utf8 = 10 :: t := by
            cases hcs : cs.flatMap utf8 with
            | nil => rw [hcs] at h10; simp at h10
            | cons y t => rw [hcs] at h10; simp at h10; exact ⟨t, by rw [h10]⟩
          obtain ⟨cs', e1, e2⟩ := flat_ascii cs 10 t ht (by omega)
          exact ⟨[13, 10], cs', by rw [e1]; rfl, by simp, by rw [ht, e2]; rfl, by simp⟩
        · rw [if_neg h10]
          exact ⟨[13], cs, rfl, by simp, rfl, by simp⟩
      · rw [prefetch_ascii c _ h8' h13]
        refine ⟨[c], cs, rfl, by simp, rfl, ?_⟩
        intro h; rw [l4.mp h]

theorem raw_text : ∀ f (codes : List Nat), (∀ c ∈ codes, c < 2097152) → ∀ e,
    collectRaw f (codes.flatMap utf8) = .ok e → ∃ body cs, e = cs.flatMap utf8 ∧ codes = body ++ 34 :: cs := by
  intro f
  induction f with
  | zero => intro codes _ e h; simp [collectRaw] at h
  | succ f ih =>
    intro codes hc e h
    rw [collectRaw] at h
    by_cases hne : codes = []
    · subst hne; simp [prefetch] at h
    · obtain ⟨ps, cs, e1, e2, e3, e4⟩ := prefetch_codes codes hc hne
      generalize prefetch (codes.flatMap utf8) = pf at h e3 e4
      obtain ⟨t, r⟩ := pf
      simp only at h e3 e4
      subst e3
      have hcs : ∀ x ∈ cs, x < 2097152 := fun x hx => hc x (by rw [e1]; simp [hx])
      split at h
      · cases h
      · split at h
        · cases h
        · split at h
          · rename_i hs
            injection h with h
            exact ⟨[], cs, h.symm, by rw [e1, e4 hs]; rfl⟩
          · split at h
            · by_cases hne2 : cs = []
              · subst hne2; simp [prefetch] at h
              · obtain ⟨ps2, cs2, f1, f2, f3, f4⟩ := prefetch_codes cs hcs hne2
                generalize prefetch (cs.flatMap utf8) = pf at h f3 f4
                obtain ⟨t2, r2⟩ := pf
                simp only at h f3
                subst f3
                split at h
                · cases h
                · obtain ⟨body, cs3, g1, g2⟩ := ih cs2 (fun x hx => hcs x (by rw [f1]; simp [hx])) e h
                  exact ⟨ps ++ (ps2 ++ body), cs3, g1, by rw [e1, f1, g2]; simp⟩
            · obtain ⟨body, cs3, g1, g2⟩ := ih cs hcs e h
              exact ⟨ps ++ body, cs3, g1, by rw [e1, g2]; simp⟩

/-- A text short enough for a token which passes the scan becomes a string. -/
theorem newString_ok (esc : Bool) (w : Nat) (al : Nat → Bool) (bytes : List Nat) (hb : ∀ b ∈ bytes, b < 256)
    (hl : bytes.length < 0xFFFF) (h : ∃ n m, slowLoop esc (bytes.length + 1) 0 0 bytes = .ok (n, m)) :
    ∃ k out, newString esc w al bytes = .ok (k, out) := by
  obtain ⟨n, m, h⟩ := h
  have hcnt := slowLoop_count esc _ _ _ _ _ _ h
  have hn := (C06_new_string esc w al bytes hb).1
  cases hv : newString esc w al bytes with
  | ok p => exact ⟨p.1, p.2, rfl⟩
  | ub => exact absurd hv hn
  | err =>
    exfalso
    unfold newString at hv
    rw [if_neg (by omega)] at hv
    by_cases h0 : bytes = []
    · rw [if_pos h0] at hv; cases hv
    · have hg : getLen esc w al bytes = .ok (n, m) := by rw [getLen_eq esc w al bytes hb]; exact h
      rw [if_neg h0, hg] at hv
      simp only at hv
      rw [if_pos (by omega)] at hv
      have hm := slowLoop_bound esc _ _ _ _ _ _ h (by omega)
      obtain ⟨kw, k6⟩ := kind_width m hm
      obtain ⟨out, eo, hlen, _⟩ := C06_decode_agrees esc w al bytes hb n m hg _ k6 kw
      rw [eo] at hv
      simp only at hv
      split at hv <;> cases hv

/-- Well-formed UTF-8 text (codes up to 0x1FFFFF, as in the rest of the program). -/
def WellFormed (b : List Nat) : Prop := ∃ codes : List Nat, (∀ c ∈ codes, c < 2097152) ∧ b = codes.flatMap utf8

/-- The literal whose token starts at `b` and ends at `e` denotes a string. -/
def Denotes (t : TT) (b e : List Nat) : Prop :=
  ∀ w al, ∃ k out, newString (tokenStr ⟨t == .stringOpen, between b e⟩).2 w al (tokenStr ⟨t == .stringOpen, between b e⟩).1 =
    .ok (k, out)

theorem bytes_of (codes : List Nat) (h : ∀ c ∈ codes, c < 2097152) : ∀ b ∈ codes.flatMap utf8, b < 256 := by
  intro b hb
  obtain ⟨c, h1, h2⟩ := List.mem_flatMap.mp hb
  exact utf8_bytes c (h c h1) b h2

/-- From the parts of an escaped literal to the string. -/
theorem escaped_denotes (q : Nat) (hq : q = 34 ∨ q = 41) (codes : List Nat) (hc : ∀ c ∈ codes, c < 2097152) (f : Nat)
    (e : List Nat) (h : collectString f (codes.flatMap utf8) = .ok e)
    (hl : (q :: codes.flatMap utf8).length - e.length ≤ 0xFFFF) :
    Denotes (stringType (q :: codes.flatMap utf8) e) (q :: codes.flatMap utf8) e := by
  obtain ⟨body, cs, s1, s2, s3⟩ := string_text f codes hc e h
  have h41 : utf8 34 = [34] := rfl
  have h92 : utf8 92 = [92] := rfl
  have h40 : utf8 40 = [40] := rfl
  intro w al
  rcases s3 with s3 | s3
  · have hb : codes.flatMap utf8 = body.flatMap utf8 ++ [34] ++ e := by
      rw [s3, s2]; simp [h41]
    have hbt : between (q :: codes.flatMap utf8) e = q :: (body.flatMap utf8 ++ [34]) := by
      rw [hb, between, ← List.cons_append, List.length_append, Nat.add_sub_cancel, List.take_left]
    have ht : stringType (q :: codes.flatMap utf8) e = .string := by
      unfold stringType
      rw [hbt, ← List.cons_append, List.getLast?_append]
      rfl
    rw [ht, hbt]
    have htok : tokenStr ⟨TT.string == .stringOpen, q :: (body.flatMap utf8 ++ [34])⟩ = (body.flatMap utf8, true) := by
      rcases hq with rfl | rfl <;> simp [tokenStr]
    rw [htok]
    apply newString_ok true w al _ _ _ s1
    · exact bytes_of body (fun c hc' => hc c (by rw [s3]; simp [hc']))
    · rw [hb] at hl; simp only [List.length_cons, List.length_append, List.length_nil] at hl; omega
  · have hb : codes.flatMap utf8 = body.flatMap utf8 ++ [92, 40] ++ e := by
      rw [s3, s2]; simp [h92, h40]
    have hbt : between (q :: codes.flatMap utf8) e = q :: (body.flatMap utf8 ++ [92, 40]) := by
      rw [hb, between, ← List.cons_append, List.length_append, Nat.add_sub_cancel, List.take_left]
    have ht : stringType (q :: codes.flatMap utf8) e = .stringOpen := by
      unfold stringType
      rw [hbt, ← List.cons_append, List.getLast?_append]
      rfl
    rw [ht, hbt]
    have htok : tokenStr ⟨TT.stringOpen == .stringOpen, q :: (body.flatMap utf8 ++ [92, 40])⟩ = (body.flatMap utf8, true) := by
      rcases hq with rfl | rfl <;> simp [tokenStr]
    rw [htok]
    apply newString_ok true w al _ _ _ s1
    · exact bytes_of body (fun c hc' => hc c (by rw [s3]; simp [hc']))
    · rw [hb] at hl; simp only [List.length_cons, List.length_append, List.length_nil] at hl; omega

theorem mapRes_ok {r : Res (List Nat)} {f : List Nat → TT} {t : TT} {e : List Nat} (h : mapRes r f = .ok (t, e)) :
    r = .ok e ∧ t = f e := by
  cases r with
  | err => cases h
  | ub => cases h
  | ok a => simp only [mapRes, Res.ok.injEq, Prod.mk.injEq] at h; exact ⟨by rw [h.2], by rw [← h.1, h.2]⟩

/-- The only ways to a string token. -/
theorem string_token (b : List Nat) (t : TT) (e : List Nat) (h : tokenAny b = .ok (t, e)) (ht : t = .string ∨ t = .stringOpen) :
    (∃ s, b = 34 :: s ∧ collectString (s.length + 1) s = .ok e ∧ t = stringType b e) ∨
    (∃ r s, (r = 114 ∨ r = 82) ∧ b = r :: 34 :: s ∧ collectRaw (s.length + 1) s = .ok e ∧ t = .string) := by
  cases b with
  | nil => simp [tokenAny] at h; rw [← h.1] at ht; simp at ht
  | cons x s =>
    have hstr := prefetch_string (x :: s)
    have no : ∀ {r : Res (List Nat)} {f : List Nat → TT}, (∀ e, f e ≠ .string ∧ f e ≠ .stringOpen) → mapRes r f = .ok (t, e) → False := by
      intro r f hf hh
      have h2 := (mapRes_ok hh).2
      have h3 := hf e
      rw [← h2] at h3
      rcases ht with ht | ht
      · exact h3.1 ht
      · exact h3.2 ht
    have noId : ∀ b e', identToken b e' = .ok (t, e) → False := by
      intro b e' hh
      refine no ?_ hh
      intro e; split <;> simp
    have noOp : ∀ y l, opToken y l = .ok (t, e) → False := by
      intro y l hh
      unfold opToken at hh
      split at hh
      · simp only [Res.ok.injEq, Prod.mk.injEq] at hh; rw [← hh.1] at ht; simp at ht
      · cases hh
    have hasc : ∀ y, y < 128 → y ≠ 13 → prefetch (y :: s) = (lexemType y, s) := fun y h1 h2 => prefetch_ascii y s h1 h2
    simp only [tokenAny] at h
    cases hc : (prefetch (x :: s)).1 with
    | string =>
      rw [hc] at h
      simp only at h
      obtain ⟨s', e1, e2⟩ := hstr hc
      injection e1 with e1 e1'
      subst e1'
      rw [e2] at h
      obtain ⟨h1, h2⟩ := mapRes_ok h
      left; exact ⟨s, by rw [e1], h1, h2⟩
    | letter =>
      rw [hc] at h
      simp only at h
      split at h
      · rename_i hx
        have hp : (prefetch (x :: s)).2 = s := by rw [hasc x (by omega) (by omega)]
        rw [hp] at h
        split at h
        · rename_i h2
          obtain ⟨s', e1, e2⟩ := prefetch_string s h2
          rw [e2] at h
          obtain ⟨h3, h4⟩ := mapRes_ok h
          right; exact ⟨x, s', hx, by rw [e1], h3, h4⟩
        · exact (noId _ _ h).elim
      · exact (noId _ _ h).elim
    | underscore => rw [hc] at h; exact (noId _ _ h).elim
    | whitespace => rw [hc] at h; exact (no (by simp) h).elim
    | comment => rw [hc] at h; exact (no (by simp) h).elim
    | operator => rw [hc] at h; exact (noOp _ _ h).elim
    | digit =>
      rw [hc] at h
      simp only at h
      split at h
      · split at h
        · exact (no (by simp) h).elim
        · split at h
          · exact (no (by simp) h).elim
          · exact (no (by simp) h).elim
      · exact (no (by simp) h).elim
    | slash =>
      rw [hc] at h
      simp only at h
      split at h
      · split at h
        · exact (no (by simp) h).elim
        · split at h
          · exact (no (by simp) h).elim
          · exact (noOp _ _ h).elim
      · simp only [Res.ok.injEq, Prod.mk.injEq] at h; rw [← h.1] at ht; simp at ht
    | eol => rw [hc] at h; simp only [Res.ok.injEq, Prod.mk.injEq] at h; rw [← h.1] at ht; simp at ht
    | separator => rw [hc] at h; simp only [Res.ok.injEq, Prod.mk.injEq] at h; rw [← h.1] at ht; simp at ht
    | eof => rw [hc] at h; cases h
    | invalid => rw [hc] at h; cases h
    | backslash => rw [hc] at h; cases h
    | tab => rw [hc] at h; cases h
    | utf8Tail => rw [hc] at h; cases h
    | utf8Two => rw [hc] at h; cases h
    | utf8Three => rw [hc] at h; cases h
    | utf8Four => rw [hc] at h; cases h
    | invalidUtf8 => rw [hc] at h; cases h
end C51
open C51

/-- The full claim: any literal accepted by the lexer in any source text denotes a string. -/
def C51_full : Prop := ∀ (b : List Nat) (t : TT) (e : List Nat), (∀ x ∈ b, x < 256) →
  nextToken b = .ok (t, e) → t = .string ∨ t = .stringOpen → Denotes t b e

/-- Bytes which are not UTF-8 pass the lexer inside of a literal: here C0, which has the type `LT_INVALID`. -/
theorem C51_violated : ¬ C51_full := by
  intro h
  obtain ⟨k, out, h1⟩ := h [34, 0xC0, 65, 34] .string [] (by decide) (by decide +kernel) (Or.inl rfl) 8 (fun _ => false)
  have h2 : newString (tokenStr ⟨TT.string == .stringOpen, between [34, 0xC0, 65, 34] []⟩).2 8 (fun _ => false)
    (tokenStr ⟨TT.string == .stringOpen, between [34, 0xC0, 65, 34] []⟩).1 = .err := by decide +kernel
  rw [h2] at h1; cases h1

/-- So do truncated sequences whose bits read so far are one of the codes treated as white space (`E2 A0`: 0xA0), and a
backslash in an overlong encoding, which the lexer does not take for an escape while the string does. -/
theorem C51_more_violations : (nextToken [34, 0xE2, 0xA0, 34] = .ok (.string, []) ∧
      newString true 8 (fun _ => false) [0xE2, 0xA0] = .err) ∧
    (nextToken [34, 0xE0, 0x81, 0x9C, 120, 34] = .ok (.string, []) ∧
      newString true 8 (fun _ => false) [0xE0, 0x81, 0x9C, 120] = .err) := by decide +kernel

/-- Missing from the full claim: source text which is not well-formed UTF-8.  In well-formed source, each escaped or raw
literal denotes a string. -/
theorem C51_literals_partial (b : List Nat) (hb : WellFormed b) (t : TT) (e : List Nat) (h : nextToken b = .ok (t, e))
    (ht : t = .string ∨ t = .stringOpen) : Denotes t b e := by
  obtain ⟨codes, hc, rfl⟩ := hb
  unfold nextToken at h
  cases hr : tokenAny (codes.flatMap utf8) with
  | err => rw [hr] at h; cases h
  | ub => rw [hr] at h; cases h
  | ok q =>
    obtain ⟨t', e'⟩ := q
    rw [hr] at h
    simp only [checkLen] at h
    split at h
    · cases h
    · rename_i hl
      simp only [Res.ok.injEq, Prod.mk.injEq] at h
      obtain ⟨rfl, rfl⟩ := h
      rcases string_token _ _ _ hr ht with ⟨s, h1, h2, h3⟩ | ⟨r, s, hr', h1, h2, h3⟩
      · obtain ⟨cs, e1, e2⟩ := flat_ascii codes 34 s h1 (by omega)
        rw [h1, e2] at h3 hl ⊢
        rw [h3]
        rw [e2] at h2
        exact escaped_denotes 34 (Or.inl rfl) cs (fun x hx => hc x (by rw [e1]; simp [hx])) _ _ h2 (by omega)
      · obtain ⟨cs1, e1, e2⟩ := flat_ascii codes r (34 :: s) h1 (by omega)
        obtain ⟨cs, e3, e4⟩ := flat_ascii cs1 34 s e2.symm (by omega)
        rw [e4] at h2
        obtain ⟨body, cs2, g1, g2⟩ := raw_text _ cs (fun x hx => hc x (by rw [e1, e3]; simp [hx])) _ h2
        have hbody : ∀ c ∈ body, c < 2097152 := fun x hx => hc x (by rw [e1, e3, g2]; simp [hx])
        have hs : s = body.flatMap utf8 ++ [34] ++ e' := by
          rw [e4, g2, g1]; simp [show utf8 34 = [34] from rfl]
        have hbt : between (codes.flatMap utf8) e' = r :: 34 :: (body.flatMap utf8 ++ [34]) := by
          rw [h1, hs, between, ← List.cons_append, ← List.cons_append, List.length_append, Nat.add_sub_cancel, List.take_left]
        intro w al
        rw [h3, hbt]
        have htok : tokenStr ⟨TT.string == .stringOpen, r :: 34 :: (body.flatMap utf8 ++ [34])⟩ = (body.flatMap utf8, false) := by
          rcases hr' with rfl | rfl <;> simp [tokenStr]
        rw [htok]
        apply newString_ok false w al _ (bytes_of body hbody)
        · rw [h1, hs] at hl; simp only [List.length_cons, List.length_append, List.length_nil] at hl; omega
        · exact ⟨_, _, slow_utf8 body _ 0 0 hbody (Nat.lt_succ_self _)⟩

/-- The same for the part of an interpolated string after `)`. -/
theorem C51_continuation_partial (b : List Nat) (hb : WellFormed b) (t : TT) (e : List Nat) (h : nextCont b = .ok (t, e)) :
    Denotes t b e := by
  obtain ⟨codes, hc, rfl⟩ := hb
  unfold nextCont at h
  cases hr : tokenCont (codes.flatMap utf8) with
  | err => rw [hr] at h; cases h
  | ub => rw [hr] at h; cases h
  | ok q =>
    obtain ⟨t', e'⟩ := q
    rw [hr] at h
    simp only [checkLen] at h
    split at h
    · cases h
    · rename_i hl
      simp only [Res.ok.injEq, Prod.mk.injEq] at h
      obtain ⟨rfl, rfl⟩ := h
      unfold tokenCont at hr
      cases hx : codes.flatMap utf8 with
      | nil => rw [hx] at hr; cases hr
      | cons x s =>
        rw [hx] at hr hl
        simp only at hr
        by_cases h41 : x = 41
        · subst h41
          rw [if_neg (by simp)] at hr
          obtain ⟨h1, h2⟩ := mapRes_ok hr
          obtain ⟨cs, e1, e2⟩ := flat_ascii codes 41 s hx (by omega)
          rw [e2] at h1 h2 hl ⊢
          rw [h2]
          exact escaped_denotes 41 (Or.inr rfl) cs (fun x hx => hc x (by rw [e1]; simp [hx])) _ _ h1 (by omega)
        · rw [if_pos h41] at hr; cases hr

/-! Example: the literal `"é\x{20ac}\(` has the body `é\x{20ac}`, which denotes two characters. -/
example : nextToken [34, 0xC3, 0xA9, 92, 120, 123, 50, 48, 97, 99, 125, 92, 40, 120] = .ok (.stringOpen, [120]) := by
  decide +kernel
example : newString true 8 (fun _ => false) [0xC3, 0xA9, 92, 120, 123, 50, 48, 97, 99, 125] = .ok (.e16, [0xE9, 0x20AC]) := by
  decide +kernel
example : nextToken [34, 92, 120, 123, 125, 34] = .err := by decide +kernel

end Verif.Props
