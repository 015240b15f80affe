import Verif.Misc.FloatFaithful
/-!
C49: floating-point literals.

Every literal which `kos_parse_double` accepts becomes a double within one unit in the last place of the number which
the literal denotes, and no other double lies between the two, with two exceptions: next to 2^1024 the result may be
infinity, and next to 2^-1022 it may be zero.  Literals are rejected only if the exponent is outside of -324 to 308 or the
number is too large.
-/
namespace Verif.Misc
open Spec

theorem pow_lo : (2 : ℚ) ^ (-1022 : Int) = ((2 ^ 52 : Nat) : ℚ) * 2 ^ (-1074 : Int) := by
  rw [pow_split (-1022) (-1074) _ 52 (by norm_num) rfl, Nat.cast_pow, Nat.cast_ofNat]

theorem pow_hi : (2 : ℚ) ^ (1024 : Int) = ((2 ^ 53 : Nat) : ℚ) * 2 ^ (971 : Int) := by
  rw [pow_split 1024 971 _ 53 (by norm_num) rfl, Nat.cast_pow, Nat.cast_ofNat]

/-- One unit in the last place, and the two places where the number is stored wrongly. -/
theorem C49_partial (l : FloatLit) (hl : l.WF) (bits : Nat) (h : parseDouble l.text = .ok bits) :
    bits < 2 ^ 64 ∧ signBit bits = l.negative ∧
    ((expField bits < 2047 ∧ |magnitude bits - l.value| < ulp bits) ∨
     (expField bits = 0 ∧ fracField bits = 0 ∧ |2 ^ (-1022 : Int) - l.value| < 2 ^ (-1074 : Int)) ∨
     (expField bits = 2047 ∧ fracField bits = 0 ∧ |2 ^ (1024 : Int) - l.value| < 2 ^ (971 : Int))) := by
  obtain ⟨h1, h2, M, U, hR, hS⟩ := parseDouble_rounded l hl bits h
  refine ⟨h1, h2, ?_⟩
  have r4 := rounded_lt hR
  rcases hS with ⟨s1, s2, s3⟩ | ⟨rfl, rfl, s3, s4⟩ | ⟨rfl, rfl, s3, s4⟩
  · left
    exact ⟨s1, by rw [s2]; exact lt_of_lt_of_le r4 s3⟩
  · right; left
    refine ⟨s3, s4, ?_⟩
    rw [pow_lo]; exact r4
  · right; right
    refine ⟨s3, s4, ?_⟩
    rw [pow_hi]; exact r4

/-- No double lies between the number and the result; a number which is a double is parsed to itself. -/
theorem C49_faithful_partial (l : FloatLit) (hl : l.WF) (bits : Nat) (h : parseDouble l.text = .ok bits)
    (hx1 : ¬ |2 ^ (-1022 : Int) - l.value| < 2 ^ (-1074 : Int)) (hx2 : ¬ |2 ^ (1024 : Int) - l.value| < 2 ^ (971 : Int)) :
    expField bits < 2047 ∧ ∀ d, expField d < 2047 →
      ¬ (magnitude bits < magnitude d ∧ magnitude d ≤ l.value) ∧ ¬ (l.value ≤ magnitude d ∧ magnitude d < magnitude bits) := by
  obtain ⟨h1, h2, M, U, hR, hS⟩ := parseDouble_rounded l hl bits h
  have hc := (C49_partial l hl bits h).2.2
  rcases hS with ⟨s1, s2, s3⟩ | ⟨rfl, rfl, s3, s4⟩ | ⟨rfl, rfl, s3, s4⟩
  · refine ⟨s1, fun d hd => ?_⟩
    rw [s2]
    exact rounded_faithful l.value M U hR d hd
  · exfalso
    apply hx1
    rw [pow_lo]; exact rounded_lt hR
  · exfalso
    apply hx2
    rw [pow_hi]; exact rounded_lt hR

/-- A literal of a number which is a double, except next to the two places, is that double. -/
theorem C49_exact (l : FloatLit) (hl : l.WF) (bits : Nat) (h : parseDouble l.text = .ok bits) (d : Nat) (hd : expField d < 2047)
    (hv : l.value = magnitude d)
    (hx1 : ¬ |2 ^ (-1022 : Int) - l.value| < 2 ^ (-1074 : Int)) (hx2 : ¬ |2 ^ (1024 : Int) - l.value| < 2 ^ (971 : Int)) :
    magnitude bits = l.value := by
  obtain ⟨_, hf⟩ := C49_faithful_partial l hl bits h hx1 hx2
  obtain ⟨f1, f2⟩ := hf d hd
  rcases lt_trichotomy (magnitude bits) l.value with hlt | heq | hgt
  · exact absurd ⟨hv ▸ hlt, hv ▸ le_refl _⟩ f1
  · exact heq
  · exact absurd ⟨hv ▸ le_refl _, hv ▸ hgt⟩ f2

/-- `C49_exact` is not about nothing: "1_2.50e+1" is 125, which is the double 0x405F400000000000. -/
example : ∃ l : FloatLit, l.WF ∧ l.text = "1_2.50e+1".toList.map Char.toNat ∧ parseDouble l.text = .ok 0x405F400000000000 ∧ l.value = 125 := by
  refine ⟨⟨none, [49, 95, 50], some [53, 48], some (false, ⟨some false, .dec, false, [49]⟩)⟩, ⟨?_, ?_, ?_⟩, by decide +kernel, by decide +kernel, ?_⟩
  · exact ⟨by decide, by unfold Digits; decide⟩
  · intro f hf; cases hf; unfold Digits; decide
  · intro u e he; cases he; exact ⟨⟨by decide, by decide⟩, rfl⟩
  · unfold FloatLit.value
    have h1 : FloatLit.number ⟨none, [49, 95, 50], some [53, 48], some (false, ⟨some false, .dec, false, [49]⟩)⟩ = 1250 := by decide +kernel
    have h2 : FloatLit.scale ⟨none, [49, 95, 50], some [53, 48], some (false, ⟨some false, .dec, false, [49]⟩)⟩ = -1 := by decide +kernel
    rw [h1, h2]; norm_num

/-- When a literal is rejected. -/
theorem C49_rejected (l : FloatLit) (hl : l.WF) (h : parseDouble l.text = .err) :
    ¬ (-324 ≤ l.written ∧ l.written ≤ 308) ∨ 2 ^ (1024 : Int) * (1 - 1 / 2 ^ 54) ≤ l.value := by
  by_cases hw : -324 ≤ l.written ∧ l.written ≤ 308
  · right
    by_cases h0 : l.number = 0
    · rw [parseDouble_zero l hl hw h0] at h
      obtain ⟨b, hb, _⟩ := assemble_zero l.negative
      rw [hb] at h; cases h
    · obtain ⟨m, e, h1, hm, h3⟩ := parseDouble_near l hl hw h0
      rw [h1] at h
      have he : 1024 ≤ e := by
        by_contra hc
        by_cases hlo : -1022 ≤ e
        · obtain ⟨M, hM, _, hf1, hf2⟩ := assemble_normal l.negative m e hm hlo (by omega)
          by_cases hlt : M < 2 ^ 53
          · obtain ⟨b, hb, _⟩ := hf1 hlt
            rw [hb] at h; cases h
          · obtain ⟨b, hb, _⟩ := hf2 (by omega)
            rw [hb] at h; cases h
        · obtain ⟨M, m', _, _, _, b, hb, _⟩ := assemble_subnormal l.negative m e hm (by omega)
          rw [hb] at h; cases h
      have hp := two_zpow_pos 1024
      rcases h3 with ⟨h3, _⟩ | h3 | ⟨_, h3⟩
      · have hv := le_val e hm
        have hz : (2 : ℚ) ^ (1024 : Int) ≤ 2 ^ e := zpow_le_zpow_right₀ (by norm_num) he
        have hle : (2 : ℚ) ^ (1024 : Int) ≤ val m e := le_trans hz hv
        generalize (2 : ℚ) ^ (1024 : Int) = t at *
        generalize val m e = V at *
        calc t * (1 - 1 / 2 ^ 54) ≤ V * (1 - 1 / 2 ^ 54) := mul_le_mul_of_nonneg_right hle (by norm_num)
          _ ≤ V * (1 - 914 * eps) := mul_le_mul_of_nonneg_left (by unfold eps; norm_num) (le_trans hp.le hle)
          _ ≤ l.value := h3
      · omega
      · have hz : (2 : ℚ) ^ (1024 : Int) ≤ 2 ^ (1099 : Int) := zpow_le_zpow_right₀ (by norm_num) (by norm_num)
        generalize (2 : ℚ) ^ (1024 : Int) = t at *
        generalize (2 : ℚ) ^ (1099 : Int) = s at *
        calc t * (1 - 1 / 2 ^ 54) ≤ t * 1 := mul_le_mul_of_nonneg_left (by norm_num) hp.le
          _ ≤ l.value := by linarith
  · exact Or.inl hw

/-- A number which is too large by more than one part in 2^53 is not accepted. -/
theorem C49_too_large (l : FloatLit) (hl : l.WF) (hv : 2 ^ (1024 : Int) * (1 + 1 / 2 ^ 53) ≤ l.value) (bits : Nat) :
    parseDouble l.text ≠ .ok bits := by
  intro h
  obtain ⟨_, _, M, U, hR, _⟩ := parseDouble_rounded l hl bits h
  have r4 := rounded_lt hR
  obtain ⟨_, r2, r3, _, _, _⟩ := hR
  rw [abs_lt] at r4
  have h1 : (2 : ℚ) ^ U ≤ 2 ^ (971 : Int) := zpow_le_zpow_right₀ (by norm_num) r2
  have h2 : (2 : ℚ) ^ (1024 : Int) = 2 ^ 53 * 2 ^ (971 : Int) := pow_split 1024 971 _ 53 (by norm_num) rfl
  have hM : (M : ℚ) ≤ 2 ^ 53 := by exact_mod_cast r3
  have hU := two_zpow_pos U
  rw [h2] at hv
  generalize (2 : ℚ) ^ (971 : Int) = t at *
  generalize (2 : ℚ) ^ U = u at *
  have : (M : ℚ) * u ≤ 2 ^ 53 * t := mul_le_mul hM h1 hU.le (by norm_num)
  nlinarith

/-- Undefined behaviour: only if the exponent is -2^63. -/
theorem C49_ub_iff (l : FloatLit) (hl : l.WF) : parseDouble l.text = .ub ↔ l.written = -2 ^ 63 := by
  by_cases hw : -324 ≤ l.written ∧ l.written ≤ 308
  · refine ⟨fun h => ?_, fun h => by omega⟩
    exfalso
    by_cases h0 : l.number = 0
    · rw [parseDouble_zero l hl hw h0] at h
      obtain ⟨b, hb, _⟩ := assemble_zero l.negative
      rw [hb] at h; cases h
    · obtain ⟨m, e, h1, _, _⟩ := parseDouble_near l hl hw h0
      rw [h1] at h
      unfold assemble at h
      split at h <;> cases h
  · rw [parseDouble_exponent l hl hw]
    by_cases hm : l.written = -2 ^ 63
    · rw [if_pos hm]; exact ⟨fun _ => hm, fun _ => rfl⟩
    · rw [if_neg hm]; constructor
      · intro h; cases h
      · intro h; exact absurd h hm

/-- A literal without sign and underscores. -/
def litOf (int frac : List Nat) (exp : Int) : FloatLit :=
  { sign := none, int := int, frac := some frac,
    exp := some (false, { sign := if exp < 0 then some true else none, radix := .dec, upper := false,
                          body := (Nat.toDigits 10 exp.natAbs).map (fun c => c.toNat) }) }

/-- `1.7976931348623159e308`: just below 2^1024 and beyond every double, so it should be rejected, but the result is infinity. -/
def litHuge : FloatLit := litOf [49] [55, 57, 55, 54, 57, 51, 49, 51, 52, 56, 54, 50, 51, 49, 53, 57] 308

/-- `2.2250738585072012e-308`: the number is all but the smallest normal double, the result is zero. -/
def litTiny : FloatLit := litOf [50] [50, 50, 53, 48, 55, 51, 56, 53, 56, 53, 48, 55, 50, 48, 49, 50] (-308)

theorem litOf_wf (int frac : List Nat) (exp : Int) (h1 : int ≠ [] ∧ ∀ c ∈ int, c = 95 ∨ (48 ≤ c ∧ c ≤ 57))
    (h2 : ∀ c ∈ frac, c = 95 ∨ (48 ≤ c ∧ c ≤ 57))
    (h3 : (Nat.toDigits 10 exp.natAbs).map (fun c => c.toNat) ≠ [] ∧
      ∀ c ∈ (Nat.toDigits 10 exp.natAbs).map (fun c => c.toNat), c = 95 ∨ (digitVal .dec c).isSome) : (litOf int frac exp).WF := by
  refine ⟨h1, ?_, ?_⟩
  · intro f hf
    cases hf
    exact h2
  · intro u e he
    cases he
    exact ⟨h3, rfl⟩

theorem litHuge_wf : litHuge.WF := litOf_wf _ _ _ (by decide) (by decide) (by decide)
theorem litTiny_wf : litTiny.WF := litOf_wf _ _ _ (by decide) (by decide) (by decide)

/-- Accepted literals whose double is not within one unit in the last place: infinity, and zero for a number above 2^-1023. -/
theorem C49_violated :
    (∃ l : FloatLit, l.WF ∧ parseDouble l.text = .ok 0x7FF0000000000000) ∧
    (∃ l : FloatLit, l.WF ∧ parseDouble l.text = .ok 0 ∧ 2 ^ (-1023 : Int) < l.value) := by
  refine ⟨⟨litHuge, litHuge_wf, by decide +kernel⟩, litTiny, litTiny_wf, by decide +kernel, ?_⟩
  have hn : litTiny.number = 22250738585072012 := by decide +kernel
  have hs : litTiny.scale = -324 := by decide +kernel
  unfold FloatLit.value
  rw [hn, hs]
  rw [zpow_neg, zpow_neg, ← one_div, ← div_eq_mul_inv]
  have h1 : (2 : ℚ) ^ (1023 : Int) = ((2 ^ 1023 : Nat) : ℚ) := by rw [show (1023 : Int) = ((1023 : Nat) : Int) from rfl, zpow_natCast, Nat.cast_pow, Nat.cast_ofNat]
  have h2 : (10 : ℚ) ^ (324 : Int) = ((10 ^ 324 : Nat) : ℚ) := by rw [show (324 : Int) = ((324 : Nat) : Int) from rfl, zpow_natCast, Nat.cast_pow, Nat.cast_ofNat]
  rw [h1, h2, div_lt_div_iff₀ (by exact_mod_cast Nat.pow_pos (by norm_num)) (by exact_mod_cast Nat.pow_pos (by norm_num))]
  have h3 : 1 * 10 ^ 324 < 22250738585072012 * 2 ^ 1023 := by decide +kernel
  exact_mod_cast h3

/-- `83e25` is not rounded to the nearest double: its neighbour is nearer. -/
theorem C49_not_nearest :
    parseDouble [56, 51, 101, 50, 53] = .ok 0x4585747ab143e354 ∧
    |magnitude 0x4585747ab143e353 - 83 * 10 ^ 25| < |magnitude 0x4585747ab143e354 - 83 * 10 ^ 25| := by
  refine ⟨by decide +kernel, ?_⟩
  have h1 := (magnitude_normal 0x4585747ab143e353 (2 ^ 52 + 1535445192401747) 1112 37 (by decide +kernel) (by decide +kernel)
    (by norm_num) (by norm_num) (by norm_num)).1
  have h2 := (magnitude_normal 0x4585747ab143e354 (2 ^ 52 + 1535445192401748) 1112 37 (by decide +kernel) (by decide +kernel)
    (by norm_num) (by norm_num) (by norm_num)).1
  have h3 : (2 : ℚ) ^ (37 : Int) = 137438953472 := by norm_num
  rw [h1, h2, h3]
  rw [abs_of_nonpos, abs_of_nonneg] <;> norm_num

theorem isInteger_digits (b r : List Nat) (hb : Digits b) : isInteger (b ++ r) = isInteger r := by
  induction b with
  | nil => rfl
  | cons c b ih =>
    have hc := hb c List.mem_cons_self
    rw [List.cons_append, isInteger, if_neg (by omega), if_neg (by omega)]
    exact ih (fun x hx => hb x (List.mem_cons_of_mem _ hx))

/-- Numbers with a fraction or an exponent are floating-point numbers. -/
theorem C49_numeric (l : FloatLit) (hl : l.WF) (hf : l.frac ≠ none ∨ l.exp ≠ none) :
    parseNumeric l.text = match parseDouble l.text with | .ok b => .ok (.float b) | .err => .err | .ub => .ub := by
  have hi : isInteger l.text = false := by
    have h1 : isInteger (l.int ++ (l.fracText ++ l.expText)) = false := by
      rw [isInteger_digits _ _ hl.int.2]
      unfold FloatLit.fracText FloatLit.expText
      cases hfr : l.frac with
      | some f => rfl
      | none =>
        cases he : l.exp with
        | none => simp [hfr, he] at hf
        | some ue => obtain ⟨u, e⟩ := ue; cases u <;> rfl
    unfold FloatLit.text
    rcases l.sign with _ | _ | _
    · exact h1
    · simp only [List.cons_append, List.nil_append, isInteger]; simpa using h1
    · simp only [List.cons_append, List.nil_append, isInteger]; simpa using h1
  unfold parseNumeric
  rw [hi]
  cases parseDouble l.text <;> rfl

/-- Numbers without them are integers (C01). -/
theorem C49_integer (l : Literal) (hl : l.WF) :
    parseNumeric l.text = match parseInt l.text with | .ok v => .ok (.int v) | .err => .err | .ub => .ub := by
  have hi : isInteger l.text = true := by
    have hdec : l.radix = .dec → isInteger l.body = true := by
      intro hr
      have hd : Digits l.body := fun c hc => dec_char_cases (by have := hl.2 c hc; rwa [hr] at this)
      have := isInteger_digits l.body [] hd
      rw [List.append_nil] at this
      rw [this]; rfl
    unfold Literal.text
    rcases l.sign with _ | _ | _ <;> cases hr : l.radix <;> cases l.upper <;>
      first
      | rfl
      | simpa [isInteger] using hdec hr
  unfold parseNumeric
  rw [hi]
  cases parseInt l.text <;> rfl

end Verif.Misc
