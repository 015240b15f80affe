import Verif.Misc.PrintFloat
import Verif.Misc.FloatFaithful
/-
Digits which `kos_print_float` prints, and what is left of them after trimming.
-/
namespace Verif.Misc
open Spec

theorem positional_append (b : Nat) (x y : List Nat) : positional b (x ++ y) = positional b x * b ^ y.length + positional b y := by
  induction x with
  | nil => simp [positional]
  | cons d x ih =>
    rw [List.cons_append, positional, positional, ih, List.length_append, Nat.pow_add, Nat.add_mul, Nat.mul_assoc, Nat.add_assoc]

theorem digs_append (x y : List Nat) : digs (x ++ y) = digs x ++ digs y := List.filterMap_append ..

theorem digs_one (r : Nat) (h : r < 10) : digs [48 + r] = [r] := by
  rw [digs_digit _ _ (by omega), Nat.add_sub_cancel_left]; rfl

theorem digits_append {x y : List Nat} (hx : Digits x) (hy : Digits y) : Digits (x ++ y) := by
  intro c hc
  rcases List.mem_append.1 hc with h | h
  · exact hx c h
  · exact hy c h

theorem digits_one (r : Nat) (h : r < 10) : Digits [48 + r] := by
  intro c hc
  rw [List.mem_singleton] at hc
  omega

/-- Only digits: no underscores. -/
def Plain (b : List Nat) : Prop := ∀ c ∈ b, 48 ≤ c ∧ c ≤ 57

theorem digs_plain_length (b : List Nat) (h : Plain b) : (digs b).length = b.length := by
  induction b with
  | nil => rfl
  | cons c b ih =>
    rw [digs_digit c b (h c List.mem_cons_self), List.length_cons, List.length_cons, ih (fun x hx => h x (List.mem_cons_of_mem _ hx))]

theorem plain_digits {b : List Nat} (h : Plain b) : Digits b := fun c hc => Or.inr (h c hc)

theorem plain_append {x y : List Nat} (hx : Plain x) (hy : Plain y) : Plain (x ++ y) := by
  intro c hc
  rcases List.mem_append.1 hc with h | h
  · exact hx c h
  · exact hy c h

theorem plain_one (r : Nat) (h : r < 10) : Plain [48 + r] := by
  intro c hc
  rw [List.mem_singleton] at hc
  omega

theorem dec_spec (fuel n : Nat) (h : n < fuel) :
    dec fuel n ≠ [] ∧ Plain (dec fuel n) ∧ positional 10 (digs (dec fuel n)) = n ∧ (n < 10 ∧ (dec fuel n).length = 1 ∨ 10 ^ ((dec fuel n).length - 1) ≤ n) ∧
    ∀ k, 0 < k → n < 10 ^ k → (dec fuel n).length ≤ k := by
  induction fuel generalizing n with
  | zero => omega
  | succ fuel ih =>
    unfold dec
    split
    · rename_i h10
      refine ⟨by simp, plain_one n h10, ?_, Or.inl ⟨h10, rfl⟩, fun k hk _ => by simp; omega⟩
      rw [digs_one n h10]; simp [positional]
    · rename_i h10
      obtain ⟨h1, h2, h3, h4, h5⟩ := ih (n / 10) (by omega)
      refine ⟨by simp, plain_append h2 (plain_one _ (Nat.mod_lt _ (by omega))), ?_, Or.inr ?_, ?_⟩
      · rw [digs_append, digs_one _ (Nat.mod_lt _ (by omega)), positional_append, h3]
        simp [positional]; omega
      · rw [List.length_append, List.length_singleton, Nat.add_sub_cancel]
        have hl : 0 < (dec fuel (n / 10)).length := List.length_pos_iff.2 h1
        rcases h4 with ⟨h4, h6⟩ | h4
        · rw [h6]; omega
        · obtain ⟨k, hk⟩ : ∃ k, (dec fuel (n / 10)).length = k + 1 := ⟨_, (Nat.succ_pred_eq_of_pos hl).symm⟩
          rw [hk] at h4 ⊢
          rw [Nat.add_sub_cancel] at h4
          rw [Nat.pow_succ 10 k]
          have := Nat.div_mul_le_self n 10
          have := Nat.mul_le_mul_right 10 h4
          omega
      · intro k hk hn
        rw [List.length_append, List.length_singleton]
        obtain ⟨j, rfl⟩ : ∃ j, k = j + 1 := ⟨k - 1, by omega⟩
        rw [Nat.pow_succ 10 j] at hn
        have hj : 0 < j := by
          rcases Nat.eq_zero_or_pos j with h | h
          · subst h; simp at hn; omega
          · exact h
        have := h5 j hj (by omega)
        omega

theorem lastDigits_spec (k n : Nat) : (lastDigits k n).length = k ∧ Plain (lastDigits k n) ∧ positional 10 (digs (lastDigits k n)) = n % 10 ^ k := by
  induction k generalizing n with
  | zero => simp [lastDigits, digs, positional, Plain, Nat.mod_one]
  | succ k ih =>
    obtain ⟨h1, h2, h3⟩ := ih (n / 10)
    unfold lastDigits
    refine ⟨by simp [h1], plain_append h2 (plain_one _ (Nat.mod_lt _ (by omega))), ?_⟩
    rw [digs_append, digs_one _ (Nat.mod_lt _ (by omega)), positional_append, h3, Nat.pow_succ 10 k, Nat.mul_comm (10 ^ k) 10, Nat.mod_mul]
    simp [positional]; omega

/-- The first digits of the last digits. -/
theorem lastDigits_take (k j n : Nat) (h : j ≤ k) : (lastDigits k n).take j = lastDigits j (n / 10 ^ (k - j)) := by
  induction k generalizing n j with
  | zero =>
    have : j = 0 := by omega
    subst this; rfl
  | succ k ih =>
    by_cases hj : j = k + 1
    · subst hj
      rw [List.take_of_length_le (by rw [(lastDigits_spec _ _).1]), Nat.sub_self, Nat.pow_zero, Nat.div_one]
    · rw [lastDigits, List.take_append_of_le_length (by rw [(lastDigits_spec _ _).1]; omega), ih j (n / 10) (by omega), Nat.div_div_eq_div_mul]
      congr 2
      rw [show k + 1 - j = (k - j) + 1 by omega, Nat.pow_succ 10, Nat.mul_comm]

/-- A list without the zeroes at its end. -/
theorem zeros_end (D : List Nat) : (∃ k, D = List.replicate k 48) ∨ ∃ f x k, D = f ++ x :: List.replicate k 48 ∧ x ≠ 48 := by
  induction D with
  | nil => exact Or.inl ⟨0, rfl⟩
  | cons c D ih =>
    rcases ih with ⟨k, rfl⟩ | ⟨f, x, k, rfl, hx⟩
    · by_cases hc : c = 48
      · subst hc; exact Or.inl ⟨k + 1, rfl⟩
      · exact Or.inr ⟨[], c, k, rfl, hc⟩
    · exact Or.inr ⟨c :: f, x, k, rfl, hx⟩

theorem trimEnd_spec (f : List Nat) (x k : Nat) (hx : x ≠ 48) :
    ∀ j, j ≤ k → trimEnd (f ++ x :: List.replicate k 48) (f.length + j) = f.length := by
  intro j
  induction j with
  | zero =>
    intro _
    rw [Nat.add_zero]
    cases hf : f.length with
    | zero => rfl
    | succ i =>
      rw [trimEnd]
      have : (f ++ x :: List.replicate k 48)[i + 1]? = some x := by
        rw [List.getElem?_append_right (by omega), hf, Nat.sub_self]; rfl
      rw [this, if_neg (by simpa using hx)]
  | succ j ih =>
    intro hj
    rw [← Nat.add_assoc, trimEnd]
    have : (f ++ x :: List.replicate k 48)[f.length + j + 1]? = some 48 := by
      rw [List.getElem?_append_right (by omega), show f.length + j + 1 - f.length = j + 1 by omega, List.getElem?_cons_succ,
        List.getElem?_replicate, if_pos (by omega)]
    rw [this, if_pos rfl]
    exact ih (by omega)

/-- What is left of the buffer if the point is in it. -/
theorem trim_point (A D : List Nat) (hD : Plain D) :
    ∃ f z, D = f ++ List.replicate z 48 ∧ (∀ t, f = t ++ [48] → t = []) ∧
      (let buf := A ++ 46 :: D
       let i := trimEnd buf (buf.length - 1)
       let i := if buf[i]? = some 46 then i + 1 else i
       let i := if i < buf.length then i + 1 else i
       buf.take i) = A ++ 46 :: f := by
  rcases zeros_end D with ⟨k, rfl⟩ | ⟨f, x, k, rfl, hx⟩
  · refine ⟨if k = 0 then [] else [48], k - 1, ?_, ?_, ?_⟩
    · cases k with
      | zero => rfl
      | succ k => rfl
    · intro t ht
      have := congrArg List.length ht
      rw [List.length_append] at this
      split at this <;> simp at this
      exact this
    · have h1 : (A ++ 46 :: List.replicate k 48).length - 1 = A.length + k := by simp
      have h2 := trimEnd_spec A 46 k (by omega) k (le_refl _)
      simp only [h1, h2]
      have h3 : (A ++ 46 :: List.replicate k 48)[A.length]? = some 46 := by
        rw [List.getElem?_append_right (le_refl _), Nat.sub_self]; rfl
      rw [if_pos h3]
      cases k with
      | zero => simp [List.take_append]
      | succ k =>
        rw [if_pos (by simp), List.take_append, List.take_of_length_le (by omega), show A.length + 1 + 1 - A.length = 2 by omega]
        rfl
  · refine ⟨f ++ [x], k, by simp, ?_, ?_⟩
    · intro t ht
      have := congrArg List.getLast? ht
      simp at this
      exact absurd this hx
    have e : A ++ 46 :: (f ++ x :: List.replicate k 48) = (A ++ 46 :: f) ++ x :: List.replicate k 48 := by simp
    simp only [e]
    have h1 : ((A ++ 46 :: f) ++ x :: List.replicate k 48).length - 1 = (A ++ 46 :: f).length + k := by
      rw [List.length_append, List.length_cons, List.length_replicate]; omega
    have h2 := trimEnd_spec (A ++ 46 :: f) x k hx k (le_refl _)
    rw [h1, h2]
    have hx2 := hD x (by simp)
    have h3 : ((A ++ 46 :: f) ++ x :: List.replicate k 48)[(A ++ 46 :: f).length]? = some x := by
      rw [List.getElem?_append_right (le_refl _), Nat.sub_self]; rfl
    have h4 : ¬ (some x = some 46) := by
      intro h; cases h; omega
    rw [h3, if_neg h4, if_pos (by rw [List.length_append (as := A ++ 46 :: f), List.length_cons]; omega)]
    rw [List.take_append, List.take_of_length_le (by omega), show (A ++ 46 :: f).length + 1 - (A ++ 46 :: f).length = 1 by omega]
    simp

/-- The parts of a finite double. -/
theorem finite_parts (bits : Nat) (hf : expField bits < 2047) :
    ∃ (S : Nat) (U : Int), S < 2 ^ 53 ∧ -1074 ≤ U ∧ magnitude bits = S * 2 ^ U ∧
      tenTo15 bits = (if U ≥ 0 then S * 2 ^ U.toNat * 10 ^ 15 else Dbl.halfEven (S * 10 ^ 15) (2 ^ (-U).toNat)) := by
  have hF : fracField bits < 2 ^ 52 := Nat.mod_lt _ (by norm_num)
  by_cases h0 : expField bits = 0
  · refine ⟨fracField bits, -1074, by omega, by omega, (magnitude_subnormal bits _ h0 rfl).1, ?_⟩
    unfold tenTo15
    have h0' : bits / 2 ^ 52 % 2 ^ 11 = 0 := h0
    rw [h0']
    simp only [if_pos]
    have hm : ¬ ((max 0 1 : Nat) : Int) - 1075 ≥ 0 := by decide
    simp only [if_neg hm, if_neg (show ¬ (-1074 : Int) ≥ 0 by decide)]
    have e : (-(((max 0 1 : Nat) : Int) - 1075)).toNat = (-(-1074 : Int)).toNat := by decide
    rw [e]
    unfold fracField
    rfl
  · refine ⟨2 ^ 52 + fracField bits, (expField bits : Int) - 1075, by omega, by omega, ?_, ?_⟩
    · exact (magnitude_normal bits (2 ^ 52 + fracField bits) _ _ rfl (by omega) (by omega) h0 rfl).1
    · unfold tenTo15
      have h0' : ¬ bits / 2 ^ 52 % 2 ^ 11 = 0 := h0
      have hm : max (bits / 2 ^ 52 % 2 ^ 11) 1 = expField bits := by
        have : expField bits = bits / 2 ^ 52 % 2 ^ 11 := rfl
        omega
      simp only [if_neg h0', hm]
      rfl

theorem halfEven_exact (x b : Nat) (hb : 0 < b) : Dbl.halfEven (x * b) b = x := by
  unfold Dbl.halfEven
  rw [Nat.mul_mod_left, if_pos (by omega), Nat.mul_div_cancel _ hb]

/-- The number times 10^15: within one half. -/
theorem tenTo15_near (bits : Nat) (hf : expField bits < 2047) : |(tenTo15 bits : ℚ) - magnitude bits * 10 ^ 15| ≤ 1 / 2 := by
  obtain ⟨S, U, _, _, hm, hN⟩ := finite_parts bits hf
  rw [hm, hN]
  by_cases hU : U ≥ 0
  · rw [if_pos hU]
    have : (2 : ℚ) ^ U = 2 ^ U.toNat := by rw [← zpow_natCast]; congr 1; omega
    rw [this]
    rw [Nat.cast_mul, Nat.cast_mul, Nat.cast_pow, Nat.cast_pow, Nat.cast_ofNat, Nat.cast_ofNat, sub_self, abs_zero]
    norm_num
  · rw [if_neg hU]
    obtain ⟨k, hk, hUk⟩ : ∃ k : Nat, (-U).toNat = k ∧ U = -(k : Int) := ⟨_, rfl, by omega⟩
    rw [hk, hUk, zpow_neg, zpow_natCast]
    have hK : 0 < 2 ^ k := Nat.two_pow_pos k
    obtain ⟨h1, h2⟩ := Dbl.halfEven_spec (S * 10 ^ 15) (2 ^ k) hK
    generalize Dbl.halfEven (S * 10 ^ 15) (2 ^ k) = N at *
    have g1 : 2 * ((S : ℚ) * 10 ^ 15) ≤ 2 * (N * 2 ^ k) + 2 ^ k := by exact_mod_cast h1
    have g2 : 2 * ((N : ℚ) * 2 ^ k) ≤ 2 * (S * 10 ^ 15) + 2 ^ k := by exact_mod_cast h2
    have hKq : (0 : ℚ) < 2 ^ k := by positivity
    generalize (2 : ℚ) ^ k = K at *
    have e : (S : ℚ) * K⁻¹ * 10 ^ 15 = (S * 10 ^ 15) / K := by rw [div_eq_mul_inv]; ring
    rw [e, abs_le]
    constructor
    · rw [neg_le_sub_iff_le_add, div_le_iff₀ hKq]; linarith
    · rw [sub_le_iff_le_add, ← sub_le_iff_le_add', le_div_iff₀ hKq]; linarith

/-- Large numbers have few decimals. -/
theorem tenTo15_cut (bits : Nat) (hf : expField bits < 2047) :
    10 ^ 15 ∣ tenTo15 bits ∨ (tenTo15 bits / 10 ^ 15 < 10 ^ 16 ∧ (10 ^ 14 ≤ tenTo15 bits / 10 ^ 15 → 10 ^ 9 ∣ tenTo15 bits)) := by
  obtain ⟨S, U, hS, _, _, hN⟩ := finite_parts bits hf
  rw [hN]
  by_cases hU : U ≥ 0
  · rw [if_pos hU]; left; exact Nat.dvd_mul_left _ _
  · rw [if_neg hU]
    right
    obtain ⟨k, hk⟩ : ∃ k : Nat, (-U).toNat = k := ⟨_, rfl⟩
    rw [hk]
    have hK : 0 < 2 ^ k := Nat.two_pow_pos k
    obtain ⟨_, h2⟩ := Dbl.halfEven_spec (S * 10 ^ 15) (2 ^ k) hK
    refine ⟨?_, ?_⟩
    · generalize Dbl.halfEven (S * 10 ^ 15) (2 ^ k) = N at *
      refine Nat.lt_of_not_le fun hle => ?_
      have hT : 2 ^ 53 * 10 ^ 15 ≤ N := by omega
      have := Nat.mul_le_mul_right (2 ^ k) hT
      generalize N * 2 ^ k = x at *
      generalize 2 ^ k = K at *
      omega
    · intro hle
      have hk6 : k ≤ 6 := by
        refine Nat.le_of_not_lt fun h7 => ?_
        have h128 : 2 ^ 7 ≤ 2 ^ k := Nat.pow_le_pow_right (by omega) h7
        generalize Dbl.halfEven (S * 10 ^ 15) (2 ^ k) = N at *
        have hT : 10 ^ 29 ≤ N := by omega
        have := Nat.mul_le_mul_right (2 ^ k) hT
        generalize N * 2 ^ k = x at *
        generalize 2 ^ k = K at *
        omega
      have e : S * 10 ^ 15 = (S * 5 ^ k * 10 ^ (15 - k)) * 2 ^ k := by
        have : 10 ^ 15 = 5 ^ k * 10 ^ (15 - k) * 2 ^ k := by
          rw [Nat.mul_right_comm, ← Nat.mul_pow, ← Nat.pow_add]; congr 1; omega
        rw [this]; ring
      rw [e, halfEven_exact _ _ hK]
      refine Nat.dvd_trans ?_ (Nat.dvd_mul_left _ _)
      exact Nat.pow_dvd_pow 10 (by omega)

/-- The integer part fits if the number does. -/
theorem tenTo15_int (bits k : Nat) (hf : expField bits < 2047) (hk : 16 ≤ k) (h : magnitude bits < 10 ^ k) : tenTo15 bits / 10 ^ 15 < 10 ^ k := by
  rcases tenTo15_cut bits hf with hd | ⟨h1, _⟩
  · obtain ⟨S, U, hS, _, hm, hN⟩ := finite_parts bits hf
    have hnear := tenTo15_near bits hf
    obtain ⟨q, hq⟩ := hd
    rw [hq, Nat.mul_div_cancel_left _ (by norm_num)]
    rw [hq, abs_le] at hnear
    push_cast at hnear
    by_contra hc
    have hq2 : (10 : ℚ) ^ k ≤ q := by exact_mod_cast Nat.le_of_not_lt hc
    -- the number is an integer, or too small
    by_cases hU : U ≥ 0
    · rw [if_pos hU, hq] at hN
      have : q = S * 2 ^ U.toNat := by
        apply Nat.eq_of_mul_eq_mul_left (show 0 < 10 ^ 15 by norm_num)
        rw [hN]; ring
      have h2 : (2 : ℚ) ^ U = 2 ^ U.toNat := by rw [← zpow_natCast]; congr 1; omega
      rw [hm, h2] at h
      rw [this] at hq2
      push_cast at hq2
      linarith
    · have h2 : (2 : ℚ) ^ U ≤ 1 := zpow_le_one_of_nonpos₀ (by norm_num) (by omega)
      have hS2 : (S : ℚ) ≤ 2 ^ 53 := by exact_mod_cast hS.le
      have h3 : magnitude bits ≤ 2 ^ 53 := by
        rw [hm]
        calc (S : ℚ) * 2 ^ U ≤ 2 ^ 53 * 1 := mul_le_mul hS2 h2 (two_zpow_pos U).le (by norm_num)
          _ = 2 ^ 53 := by ring
      have h4 : (10 : ℚ) ^ 16 ≤ 10 ^ k := pow_le_pow_right₀ (by norm_num) hk
      linarith
  · exact lt_of_lt_of_le h1 (Nat.pow_le_pow_right (by norm_num) hk)

/-- Zeroes at the end multiply by ten. -/
theorem number_zeros (I f D : List Nat) (z : Nat) (hfz : D = f ++ List.replicate z 48) (hD : Plain D) :
    positional 10 (digs (I ++ f)) * 10 ^ z = positional 10 (digs I) * 10 ^ D.length + positional 10 (digs D) := by
  have hzp : Plain (List.replicate z 48) := by
    intro c hc; rw [List.eq_of_mem_replicate hc]; omega
  have hz0 : ∀ x ∈ digs (List.replicate z 48), x = 0 := by
    intro x hx
    obtain ⟨c, hc, hcx⟩ := List.mem_filterMap.1 hx
    rw [List.eq_of_mem_replicate hc] at hcx
    simp [digitVal] at hcx
    omega
  have h1 : positional 10 (digs (I ++ f)) * 10 ^ z = positional 10 (digs (I ++ (f ++ List.replicate z 48))) := by
    rw [← List.append_assoc, digs_append (I ++ f), positional_append, positional_zero _ hz0, digs_plain_length _ hzp, List.length_replicate, Nat.add_zero]
  rw [h1, ← hfz, digs_append, positional_append, digs_plain_length _ hD]

theorem cut_number (N d : Nat) (hd15 : d ≤ 15) (hdvd : 10 ^ (15 - d) ∣ N) :
    (N / 10 ^ 15 * 10 ^ d + N % 10 ^ 15 / 10 ^ (15 - d) % 10 ^ d) * 10 ^ (15 - d) = N := by
  have hp : 10 ^ d * 10 ^ (15 - d) = 10 ^ 15 := by rw [← Nat.pow_add]; congr 1; omega
  have hdv : 10 ^ (15 - d) ∣ 10 ^ 15 := Nat.pow_dvd_pow 10 (by omega)
  generalize 10 ^ 15 = T at *
  have hT : 0 < T := by rw [← hp]; positivity
  have hlt : N % T / 10 ^ (15 - d) < 10 ^ d := by
    apply Nat.div_lt_of_lt_mul
    rw [Nat.mul_comm, hp]; exact Nat.mod_lt _ hT
  rw [Nat.mod_eq_of_lt hlt, Nat.add_mul, Nat.mul_assoc, hp, Nat.div_mul_cancel ((Nat.dvd_mod_iff hdv).2 hdvd), Nat.mul_comm]
  exact Nat.div_add_mod N T

theorem value_of (P z d fl N : Nat) (h : P * 10 ^ z * 10 ^ (15 - d) = N) (hz : fl + z = d) (hd : d ≤ 15) :
    (P : ℚ) * 10 ^ ((0 : Int) - (fl : Int)) = N / 10 ^ 15 := by
  have hq : (P : ℚ) * 10 ^ z * 10 ^ (15 - d) = N := by rw [← h]; push_cast; rfl
  have h15 : (10 : ℚ) ^ 15 = 10 ^ fl * 10 ^ z * 10 ^ (15 - d) := by
    rw [← pow_add, ← pow_add]; congr 1; omega
  rw [zero_sub, zpow_neg, zpow_natCast, ← hq, h15]
  have h1 : (10 : ℚ) ^ fl ≠ 0 := by positivity
  have h2 : (10 : ℚ) ^ z ≠ 0 := by positivity
  have h3 : (10 : ℚ) ^ (15 - d) ≠ 0 := by positivity
  generalize (10 : ℚ) ^ fl = a at *
  generalize (10 : ℚ) ^ z = b at *
  generalize (10 : ℚ) ^ (15 - d) = c at *
  field_simp

/-- There are no leading zeroes. -/
theorem dec_head (fuel n : Nat) (hf : n < fuel) : ∀ t, dec fuel n = 48 :: t → t = [] := by
  suffices h : (n < 10 → (dec fuel n).length = 1) ∧ (0 < n → (dec fuel n).head? ≠ some 48) by
    intro t ht
    by_cases h0 : n < 10
    · have := h.1 h0
      rw [ht] at this
      simpa using this
    · exact absurd (by rw [ht]; rfl) (h.2 (by omega))
  induction fuel generalizing n with
  | zero => omega
  | succ fuel ih =>
    rw [dec]
    by_cases h0 : n < 10
    · rw [if_pos h0]
      refine ⟨fun _ => rfl, fun hp => ?_⟩
      simp; omega
    · rw [if_neg h0]
      refine ⟨fun h => absurd h h0, fun _ => ?_⟩
      have := (ih (n / 10) (by omega)).2 (by omega)
      have hne := (dec_spec fuel (n / 10) (by omega)).1
      cases hd : dec fuel (n / 10) with
      | nil => exact absurd hd hne
      | cons a b => rw [hd] at this; simpa using this

/-- The text of a finite double below 10^30 (10^29 for negative ones) in a buffer of 32 bytes. -/
theorem printFloat_text (bits : Nat) (hf : expField bits < 2047)
    (h : magnitude bits < 10 ^ (if signBit bits then 29 else 30)) :
    ∃ l : FloatLit, l.WF ∧ l.text = printFloat 32 bits ∧ l.negative = signBit bits ∧ l.frac ≠ none ∧ l.exp = none ∧
      l.value = tenTo15 bits / 10 ^ 15 ∧ (∀ t, l.int = 48 :: t → t = []) ∧ (∀ t, l.frac = some (t ++ [48]) → t = []) ∧
      Plain l.int ∧ (∀ f, l.frac = some f → Plain f) ∧ l.sign = if signBit bits then some true else none := by
  obtain ⟨N, hN⟩ : ∃ N, tenTo15 bits = N := ⟨_, rfl⟩
  obtain ⟨n, hn⟩ : ∃ n, N / 10 ^ 15 = n := ⟨_, rfl⟩
  obtain ⟨sg, hsg⟩ : ∃ sg : List Nat, (if bits / 2 ^ 63 % 2 = 1 then [45] else []) = sg := ⟨_, rfl⟩
  obtain ⟨d1, d2, d3, d4, d5⟩ := dec_spec (n + 1) n (by omega)
  have hhead := dec_head (n + 1) n (by omega)
  generalize hI : dec (n + 1) n = I at *
  obtain ⟨l1, l2, l3⟩ := lastDigits_spec 15 (N % 10 ^ 15)
  have hfix : fixed15 bits = (sg ++ I) ++ 46 :: lastDigits 15 (N % 10 ^ 15) := by
    unfold fixed15
    simp only [hN, hn, hI, hsg, List.append_assoc]
  have hint := tenTo15_int bits (if signBit bits then 29 else 30) hf (by split <;> omega) h
  rw [hN, hn] at hint
  have hIl := d5 _ (by split <;> omega) hint
  have hL : (sg ++ I).length ≤ 30 := by
    rw [List.length_append, ← hsg]
    by_cases hs : bits / 2 ^ 63 % 2 = 1
    · have : signBit bits = true := by unfold signBit; exact decide_eq_true hs
      rw [this] at hIl
      rw [if_pos hs]; simp at hIl ⊢; omega
    · have : signBit bits = false := by unfold signBit; exact decide_eq_false hs
      rw [this] at hIl
      rw [if_neg hs]; simp at hIl ⊢; omega
  have hsl : sg.length ≤ 1 := by rw [← hsg]; split <;> simp
  obtain ⟨d, hd⟩ : ∃ d, min 15 (30 - (sg ++ I).length) = d := ⟨_, rfl⟩
  have hbuf : (fixed15 bits).take 31 = (sg ++ I) ++ 46 :: lastDigits d (N % 10 ^ 15 / 10 ^ (15 - d)) := by
    have hx : (lastDigits 15 (N % 10 ^ 15)).take (30 - (sg ++ I).length) = lastDigits d (N % 10 ^ 15 / 10 ^ (15 - d)) := by
      rw [← lastDigits_take 15 d _ (by omega), ← hd]
      rcases Nat.le_total 15 (30 - (sg ++ I).length) with hle | hle
      · rw [Nat.min_eq_left hle, List.take_of_length_le (by omega), List.take_of_length_le (by omega)]
      · rw [Nat.min_eq_right hle]
    rw [hfix, List.take_append, List.take_of_length_le (by omega),
      show 31 - (sg ++ I).length = (30 - (sg ++ I).length) + 1 by omega, List.take_succ_cons, hx]
  have hlen : ((sg ++ I) ++ 46 :: lastDigits d (N % 10 ^ 15 / 10 ^ (15 - d))).length = min (fixed15 bits).length 31 := by
    rw [hfix, List.length_append, List.length_append (bs := 46 :: lastDigits 15 _), List.length_cons, List.length_cons, (lastDigits_spec d _).1, l1]; omega
  obtain ⟨e1, e2, e3⟩ := lastDigits_spec d (N % 10 ^ 15 / 10 ^ (15 - d))
  obtain ⟨f, z, hfz, hfend, htrim⟩ := trim_point (sg ++ I) _ e2
  have hprint : printFloat 32 bits = (sg ++ I) ++ 46 :: f := by
    unfold printFloat
    rw [if_neg (show ¬ bits / 2 ^ 52 % 2 ^ 11 = 0x7FF by unfold expField at hf; omega)]
    simp only [show 32 - 1 = 31 from rfl, hbuf, ← hlen]
    exact htrim
  have hpf : Plain f := fun c hc => e2 c (by rw [hfz]; exact List.mem_append_left _ hc)
  refine ⟨⟨if signBit bits then some true else none, I, some f, none⟩, ⟨⟨d1, plain_digits d2⟩, ?_, ?_⟩, ?_, ?_, by simp, rfl, ?_, hhead, fun t ht => hfend t (Option.some.inj ht),
    d2, fun f' hf' => by cases hf'; exact hpf, rfl⟩
  · intro f' hf'; cases hf'; exact plain_digits hpf
  · intro u e he; cases he
  · rw [hprint, ← hsg]
    unfold FloatLit.text FloatLit.fracText FloatLit.expText
    by_cases hs : bits / 2 ^ 63 % 2 = 1
    · have : signBit bits = true := by unfold signBit; exact decide_eq_true hs
      rw [this, if_pos hs]; simp
    · have : signBit bits = false := by unfold signBit; exact decide_eq_false hs
      rw [this, if_neg hs]; simp
  · unfold FloatLit.negative
    cases signBit bits <;> rfl
  · unfold FloatLit.value FloatLit.number FloatLit.scale FloatLit.written
    simp only [Option.getD_some]
    show (positional 10 (digs (I ++ f)) : ℚ) * 10 ^ ((0 : Int) - ((digs f).length : Int)) = _
    rw [digs_plain_length f hpf, hN]
    have hzl : f.length + z = d := by
      have := congrArg List.length hfz
      rw [e1, List.length_append, List.length_replicate] at this
      omega
    have hnum := number_zeros I f (lastDigits d (N % 10 ^ 15 / 10 ^ (15 - d))) z hfz e2
    rw [d3, e3, e1] at hnum
    -- nothing is cut off
    have hdvd : 10 ^ (15 - d) ∣ N := by
      rcases tenTo15_cut bits hf with hc | ⟨hc1, hc2⟩
      · rw [hN] at hc; exact Nat.dvd_trans (Nat.pow_dvd_pow 10 (by omega)) hc
      · rw [hN, hn] at hc1 hc2
        have hl16 := d5 16 (by omega) hc1
        by_cases hd15 : d = 15
        · rw [hd15]; exact Nat.one_dvd _
        · have hll : 15 ≤ I.length ∧ 13 ≤ d := by
            rw [List.length_append] at hd; omega
          have h14 : 10 ^ 14 ≤ n := by
            rcases d4 with ⟨_, d4⟩ | d4
            · omega
            · exact le_trans (Nat.pow_le_pow_right (by omega) (by omega)) d4
          exact Nat.dvd_trans (Nat.pow_dvd_pow 10 (by omega)) (hc2 h14)
    have hfull := cut_number N d (by omega) hdvd
    rw [hn] at hfull
    exact value_of _ z d _ N (by rw [hnum]; exact hfull) hzl (by omega)

end Verif.Misc
