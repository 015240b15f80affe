import Verif.Misc.ParseInt
namespace Verif.Misc
open Spec

/-- Largest accepted magnitude. -/
def limitOf (radix : Nat) (minus : Bool) : Nat := vmaxOf radix * radix + dmaxOf radix minus

theorem digitVal_not_us (r : Radix) : digitVal r 95 = none := by cases r <;> decide

theorem digitOf_eq {r : Radix} {c d : Nat} (h : digitVal r c = some d) :
    digitOf c = d ∧ d < r.base ∧ c ≠ 95 := by
  cases r <;> simp only [digitVal] at h <;> simp only [Radix.base]
  · split at h
    · simp only [Option.some.injEq] at h
      unfold digitOf; refine ⟨?_, by omega, by omega⟩
      rw [if_pos (by omega)]; omega
    · simp at h
  · split at h
    · simp only [Option.some.injEq] at h
      unfold digitOf; refine ⟨?_, by omega, by omega⟩
      rw [if_pos (by omega)]; omega
    · split at h
      · simp only [Option.some.injEq] at h
        unfold digitOf; refine ⟨?_, by omega, by omega⟩
        rw [if_neg (by omega), if_neg (by omega)]; omega
      · split at h
        · simp only [Option.some.injEq] at h
          unfold digitOf; refine ⟨?_, by omega, by omega⟩
          rw [if_neg (by omega), if_pos (by omega)]; omega
        · simp at h
  · split at h
    · simp only [Option.some.injEq] at h
      subst h; rename_i hc; subst hc; decide
    · split at h
      · simp only [Option.some.injEq] at h
        subst h; rename_i hc; subst hc; decide
      · simp at h

/-- The accepted characters are exactly underscores and digits. -/
theorem good_iff (r : Radix) (c : Nat) :
    (if r.base = 16 then isHexCh else if r.base = 2 then isBinCh else isDecCh) c = true ↔
      (c = 95 ∨ (digitVal r c).isSome) := by
  cases r <;> simp [Radix.base, isHexCh, isBinCh, isDecCh, digitVal]
  · omega
  · split
    · simp; omega
    · split
      · simp; omega
      · split <;> simp <;> omega
  · split
    · simp; omega
    · split <;> simp <;> omega

theorem positional_lt (b : Nat) (hb : 0 < b) (ds : List Nat) (h : ∀ d ∈ ds, d < b) :
    positional b ds < b ^ ds.length := by
  induction ds with
  | nil => simp [positional]
  | cons d ds ih =>
    have h1 := h d (by simp)
    have h2 := ih (fun x hx => h x (by simp [hx]))
    simp only [positional, List.length_cons, Nat.pow_succ]
    have : (d + 1) * b ^ ds.length ≤ b * b ^ ds.length := Nat.mul_le_mul_right _ h1
    rw [Nat.add_mul] at this
    rw [Nat.mul_comm (b ^ ds.length) b]
    omega

/-- The loop computes the positional value, or stops exactly when it exceeds the limit. -/
theorem accum_spec (r : Radix) (vmax dmax : Nat) (hd : dmax < r.base)
    (hl : vmax * r.base + dmax < 2 ^ 64) :
    ∀ (cs : List Nat) (v : Nat), (∀ c ∈ cs, c = 95 ∨ (digitVal r c).isSome) →
      v ≤ vmax * r.base + dmax →
      accum r.base vmax dmax v cs =
        (let ds := cs.filterMap (digitVal r)
         let total := v * r.base ^ ds.length + positional r.base ds
         if total ≤ vmax * r.base + dmax then some total else none) := by
  have hb : 0 < r.base := by cases r <;> decide
  intro cs
  induction cs with
  | nil =>
    intro v _ hv
    simp [accum, positional, hv]
  | cons c cs ih =>
    intro v hc hv
    have hcs : ∀ x ∈ cs, x = 95 ∨ (digitVal r x).isSome := fun x hx => hc x (by simp [hx])
    by_cases h95 : c = 95
    · subst h95
      simp only [accum, if_true, List.filterMap_cons, digitVal_not_us]
      exact ih v hcs hv
    · have hsome : (digitVal r c).isSome := by
        rcases hc c (by simp) with h | h
        · exact absurd h h95
        · exact h
      obtain ⟨d, hd'⟩ := Option.isSome_iff_exists.mp hsome
      obtain ⟨hdig, hdlt, -⟩ := digitOf_eq hd'
      simp only [accum, if_neg h95, hdig, List.filterMap_cons, hd', List.length_cons, positional]
      generalize hds : cs.filterMap (digitVal r) = ds at *
      have hpos : 1 ≤ r.base ^ ds.length := Nat.pow_pos hb
      have key : v * r.base ^ (ds.length + 1) + (d * r.base ^ ds.length + positional r.base ds)
          = (v * r.base + d) * r.base ^ ds.length + positional r.base ds := by
        rw [Nat.pow_succ, Nat.add_mul, Nat.mul_assoc v r.base, Nat.mul_comm r.base]; omega
      rw [key]
      have big : ∀ x, x ≤ x * r.base ^ ds.length := fun x => Nat.le_mul_of_pos_right x hpos
      by_cases h1 : v > vmax
      · have h2 : vmax * r.base + dmax < v * r.base + d := by
          have : (vmax + 1) * r.base ≤ v * r.base := Nat.mul_le_mul_right _ h1
          rw [Nat.add_mul] at this; omega
        rw [if_pos h1, if_neg]
        have := big (v * r.base + d); omega
      · rw [if_neg h1]
        by_cases h3 : v = vmax ∧ d > dmax
        · rw [if_pos h3, if_neg]
          have := big (v * r.base + d)
          rw [h3.1] at this ⊢; omega
        · rw [if_neg h3]
          have hle : v * r.base + d ≤ vmax * r.base + dmax := by
            by_cases hv' : v = vmax
            · subst hv'; omega
            · have : (v + 1) * r.base ≤ vmax * r.base := Nat.mul_le_mul_right _ (by omega)
              rw [Nat.add_mul] at this; omega
          rw [Nat.mod_eq_of_lt (by omega)]
          rw [ih (v * r.base + d) hcs hle]

theorem dmaxOf_lt (r : Radix) (m : Bool) : dmaxOf r.base m < r.base := by
  cases r <;> cases m <;> decide
theorem limitOf_val (r : Radix) (m : Bool) : limitOf r.base m =
    match r with | .dec => if m then 2^63 else 2^63 - 1 | _ => 2^64 - 1 := by
  cases r <;> cases m <;> decide

theorem toI64_small {m : Nat} (h : m < 2^63) : toI64 m = m := if_pos h
theorem toI64_big {m : Nat} (h : ¬ m < 2^63) : toI64 m = (m : Int) - 2^64 := if_neg h

theorem signed64_small (x : Int) (h : -2^63 ≤ x ∧ x < 2^63) : signed64 x = x := by
  unfold signed64; omega
theorem signed64_hi (x : Int) (h : 2^63 ≤ x ∧ x < 2^64) : signed64 x = x - 2^64 := by
  unfold signed64; omega
theorem signed64_lo (x : Int) (h : -2^64 < x ∧ x < -2^63) : signed64 x = x + 2^64 := by
  unfold signed64; omega

theorem finish_neg (m : Nat) (h : m < 2^64) :
    finish true m = if signed64 (-(m : Int)) = -2^63 then .ub else .ok (signed64 (-(m : Int))) := by
  unfold finish
  rw [if_pos rfl]
  by_cases h1 : m < 2^63
  · rw [toI64_small h1, signed64_small _ (by omega), if_neg (by omega), if_neg (by omega)]
  · rw [toI64_big h1]
    by_cases h2 : m = 2^63
    · subst h2; decide
    · rw [signed64_lo _ (by omega), if_neg (by omega), if_neg (by omega)]
      congr 1; omega

theorem finish_pos (m : Nat) (h : m < 2^64) : finish false m = .ok (signed64 m) := by
  unfold finish
  rw [if_neg (by decide)]
  by_cases h1 : m < 2^63
  · rw [toI64_small h1, signed64_small _ (by omega)]
  · rw [toI64_big h1, signed64_hi _ (by omega)]

/-- The outcome for a well-formed literal, stated through the specification's meaning. -/
def expected (l : Literal) : IntRes :=
  match l.meaning with
  | none => .err
  | some v => if l.negative ∧ v = -2^63 then .ub else .ok v

/-- Outcome as a function of the magnitude. -/
def outcome (r : Radix) (neg : Bool) (m : Nat) : IntRes :=
  if m ≤ limitOf r.base neg then finish neg m else .err

theorem outcome_dec (neg : Bool) (m : Nat) : outcome .dec neg m =
    match (if -2^63 ≤ (if neg then -(m : Int) else m) ∧ (if neg then -(m : Int) else m) < 2^63
      then some (if neg then -(m : Int) else m) else none) with
    | none => .err
    | some v => if neg ∧ v = -2^63 then .ub else .ok v := by
  unfold outcome
  cases neg
  · rw [show limitOf Radix.dec.base false = 9223372036854775807 from by decide]
    by_cases h : m ≤ 9223372036854775807
    · rw [if_pos h, finish_pos m (by omega), signed64_small _ (by omega)]
      simp only [Bool.false_eq_true, if_false, false_and]
      rw [if_pos (by omega)]
    · rw [if_neg h]
      simp only [Bool.false_eq_true, if_false, false_and]
      rw [if_neg (by omega)]
  · rw [show limitOf Radix.dec.base true = 9223372036854775808 from by decide]
    by_cases h : m ≤ 9223372036854775808
    · rw [if_pos h, finish_neg m (by omega), signed64_small _ (by omega)]
      simp only [if_true, true_and]
      rw [if_pos (c := -2^63 ≤ -(m:Int) ∧ -(m:Int) < 2^63) (by omega)]
    · rw [if_neg h]
      simp only [if_true, true_and]
      rw [if_neg (by omega)]

theorem outcome_pow2 (r : Radix) (hr : limitOf r.base true = 18446744073709551615)
    (hr' : limitOf r.base false = 18446744073709551615) (neg : Bool) (m : Nat) : outcome r neg m =
    match (if m < 2^64 then some (signed64 (if neg then -(m : Int) else m)) else none) with
    | none => .err
    | some v => if neg ∧ v = -2^63 then .ub else .ok v := by
  unfold outcome
  cases neg
  · rw [hr']
    by_cases h : m ≤ 18446744073709551615
    · rw [if_pos h, finish_pos m (by omega), if_pos (by omega)]
      simp only [Bool.false_eq_true, if_false, false_and]
    · rw [if_neg h, if_neg (by omega)]
  · rw [hr]
    by_cases h : m ≤ 18446744073709551615
    · rw [if_pos h, finish_neg m (by omega), if_pos (c := m < 2^64) (by omega)]
      simp only [if_true, true_and]
    · rw [if_neg h, if_neg (by omega)]

theorem outcome_eq_expected (l : Literal) : outcome l.radix l.negative l.magnitude = expected l := by
  unfold expected Literal.meaning
  generalize l.magnitude = m
  cases l.radix
  · exact outcome_dec _ _
  · exact outcome_pow2 _ (by decide) (by decide) _ _
  · exact outcome_pow2 _ (by decide) (by decide) _ _

theorem expected_small (l : Literal) (hr : l.radix = .dec) (hn : l.negative = false) (h : l.magnitude ≤ 9223372036854775807) :
    expected l = .ok l.magnitude := by
  rw [← outcome_eq_expected, hr, hn]
  generalize l.magnitude = m at *
  unfold outcome
  rw [show limitOf Radix.dec.base false = 9223372036854775807 from by decide, if_pos h, finish_pos m (by omega), signed64_small _ (by omega)]

theorem limitOf_lt (r : Radix) (m : Bool) : limitOf r.base m < 2^64 := by
  rw [limitOf_val]; cases r <;> cases m <;> decide

theorem parseBody_spec (l : Literal) (hwf : l.WF) :
    parseBody l.radix.base l.negative l.body = expected l := by
  obtain ⟨hne, hch⟩ := hwf
  have hall : l.body.all
      (if l.radix.base = 16 then isHexCh else if l.radix.base = 2 then isBinCh else isDecCh) = true := by
    rw [List.all_eq_true]
    intro c hc
    exact (good_iff l.radix c).mpr (hch c hc)
  have hacc := accum_spec l.radix (vmaxOf l.radix.base) (dmaxOf l.radix.base l.negative)
    (dmaxOf_lt _ _) (limitOf_lt _ _) l.body 0 hch (Nat.zero_le _)
  simp only [Nat.zero_mul, Nat.zero_add] at hacc
  rw [← outcome_eq_expected, parseBody]
  simp only [hall, hne, or_self, if_false, Bool.true_eq_false]
  rw [hacc]
  unfold outcome Literal.magnitude limitOf
  split <;> rename_i h
  · split at h
    · cases h
    · rename_i h2; rw [if_neg h2]
  · split at h
    · rename_i h2; rw [if_pos h2]; cases h; rfl
    · cases h

theorem meaning_hex_pos (l : Literal) (m : Nat) (hr : l.radix = .hex) (hn : l.negative = false)
    (hm : l.magnitude = m) (h : m < 18446744073709551616) : l.meaning = some (signed64 m) := by
  unfold Literal.meaning
  rw [hr, hn, hm]
  exact if_pos h

end Verif.Misc
