import Verif.Lib.Datetime

/-
C41: datetime converts timestamps to calendar dates and back.
-/
namespace Verif.Datetime

/- Specification: the Gregorian calendar, day after day since 1 January 1970. -/

def Leap (y : Int) : Prop := 4 ∣ y ∧ (¬ 100 ∣ y ∨ 400 ∣ y)

instance (y : Int) : Decidable (Leap y) := inferInstanceAs (Decidable (_ ∧ _))

/-- Days in a month. -/
def monthLen (y m : Int) : Int :=
  if m = 2 then if Leap y then 29 else 28
  else if m = 4 ∨ m = 6 ∨ m = 9 ∨ m = 11 then 30
  else 31

structure Date where
  year : Int
  month : Int
  day : Int
  deriving Repr, DecidableEq

/-- The next day. -/
def Date.next (x : Date) : Date :=
  if x.day < monthLen x.year x.month then { x with day := x.day + 1 }
  else if x.month < 12 then ⟨x.year, x.month + 1, 1⟩
  else ⟨x.year + 1, 1, 1⟩

/-- The date `n` days after 1 January 1970. -/
def dateOf : Nat → Date
  | 0 => ⟨1970, 1, 1⟩
  | n + 1 => (dateOf n).next

/-- The date exists. -/
def Date.Real (x : Date) : Prop := 1 ≤ x.month ∧ x.month ≤ 12 ∧ 1 ≤ x.day ∧ x.day ≤ monthLen x.year x.month

/-- Microseconds since the beginning of 1 January 1970. -/
def stamp (n : Nat) (h m s us : Int) : Int := (((n * 24 + h) * 60 + m) * 60 + s) * 1000000 + us

/-- A time of day. -/
def Time (h m s us : Int) : Prop := 0 ≤ h ∧ h ≤ 23 ∧ 0 ≤ m ∧ m ≤ 59 ∧ 0 ≤ s ∧ s ≤ 59 ∧ 0 ≤ us ∧ us ≤ 999999

/-- The full statement: fields are those of the calendar, they give the timestamp, and dates which do not exist are rejected. -/
def C41_full : Prop :=
  (∀ ts : Int, 0 ≤ ts → ts < 2 ^ 63 → ∃ f us n, fromTimestamp ts = .ok f ∧ f.us = some us ∧ Time f.hour f.minute f.second us ∧ dateOf n = ⟨f.year, f.month, f.day⟩ ∧
    stamp n f.hour f.minute f.second us = ts ∧ (f.leap = true ↔ Leap f.year) ∧
    fromFields (some f.year) (some f.month) (some f.day) (some f.hour) (some f.minute) (some f.second) (some us) = .ok f) ∧
  (∀ y m d h mi s us, (∃ f, fromFields (some y) (some m) (some d) h mi s us = .ok f) → Date.Real ⟨y, m, d⟩)

/- Proofs -/

@[simp] theorem bind_ok {α β : Type} (a : α) (k : α → R β) : (R.ok a >>= k) = k a := rfl
@[simp] theorem bind_thr {α β : Type} (k : α → R β) : (R.thr >>= k) = .thr := rfl
@[simp] theorem pure_ok {α : Type} (a : α) : (pure a : R α) = .ok a := rfl

theorem ck_ok {x : Int} (h : -9223372036854775808 ≤ x) (h' : x < 9223372036854775808) : ck x = .ok x := if_pos ⟨h, h'⟩

/-- Days before a year. -/
def daysBefore (y : Int) : Int := 365 * (y - 1970) + (y - 1969) / 4 - (y - 1901) / 100 + (y - 1601) / 400

theorem firstDayFromYear_eq (y : Int) (h : 1901 ≤ y) (h' : y ≤ 1000000) : firstDayFromYear y = .ok (daysBefore y) := by
  have e1 : (y - 1901).tdiv 100 = (y - 1901) / 100 := Int.tdiv_eq_ediv_of_nonneg (by omega)
  have e2 : (y - 1601).tdiv 400 = (y - 1601) / 400 := Int.tdiv_eq_ediv_of_nonneg (by omega)
  unfold firstDayFromYear sub mul add daysBefore
  rw [ck_ok (x := y - 1970) (by omega) (by omega), bind_ok, ck_ok (by omega) (by omega), bind_ok, ck_ok (x := y - 1969) (by omega) (by omega), bind_ok,
    ck_ok (by omega) (by omega), bind_ok, ck_ok (x := y - 1901) (by omega) (by omega), bind_ok, e1, ck_ok (by omega) (by omega), bind_ok,
    ck_ok (x := y - 1601) (by omega) (by omega), bind_ok, e2, ck_ok (by omega) (by omega)]

theorem isLeapYear_iff (y : Int) : isLeapYear y = true ↔ Leap y := by
  unfold isLeapYear Leap
  simp only [Bool.and_eq_true, Bool.or_eq_true, beq_iff_eq, bne_iff_ne, ne_eq, Int.dvd_iff_tmod_eq_zero]

def yearLen (y : Int) : Int := if Leap y then 366 else 365

theorem daysBefore_succ (y : Int) : daysBefore (y + 1) = daysBefore y + yearLen y := by
  unfold daysBefore yearLen
  by_cases h : Leap y
  · rw [if_pos h]; unfold Leap at h; omega
  · rw [if_neg h]; unfold Leap at h; omega

/-- The estimate of the year is wrong by one at most. -/
theorem yearsBefore_spec (d : Nat) (h : d < 2 ^ 40) : daysBefore (yearsBefore d + 1969) ≤ d ∧ (d : Int) < daysBefore (yearsBefore d + 1972) := by
  unfold yearsBefore
  split
  · subst d; decide
  · rename_i hd
    have hc : Dbl.rn 3652425 10000 = (6425414011327611, -44) := by decide +kernel
    rw [hc]
    have hf := Dbl.floor_rn (d * 2 ^ 44) 6425414011327611 (by omega) (by omega) (by omega)
    have e : Dbl.divide d (6425414011327611, -44) = Dbl.rn (d * 2 ^ 44) 6425414011327611 := rfl
    rw [e]
    generalize Dbl.floor (Dbl.rn (d * 2 ^ 44) 6425414011327611) = f at hf
    unfold daysBefore
    omega

theorem yearsBefore_le (d : Nat) (h : d < 2 ^ 27) : yearsBefore d < 380000 := by
  have := (yearsBefore_spec d (by omega)).1
  unfold daysBefore at this
  omega

/-- The year which contains a day. -/
theorem fixYear_spec (y d : Int) (hy : 1970 ≤ y) (hy' : y ≤ 400000) (hd : 0 ≤ d) (h1 : daysBefore (y - 1) ≤ d) (h2 : d < daysBefore (y + 2)) :
    ∃ y', fixYear y (daysBefore y) d = .ok (y', isLeapYear y', daysBefore y') ∧ daysBefore y' ≤ d ∧ d < daysBefore (y' + 1) ∧ 1970 ≤ y' ∧ y' ≤ y + 1 := by
  have hlen : ∀ y, (if isLeapYear y then 366 else 365 : Int) = yearLen y := fun y => by
    unfold yearLen
    by_cases h : Leap y
    · rw [if_pos h, if_pos ((isLeapYear_iff y).2 h)]
    · rw [if_neg h, if_neg (fun c => h ((isLeapYear_iff y).1 c))]
  have hb : ∀ z : Int, 1900 ≤ z → z ≤ 500000 → -2 ^ 50 ≤ daysBefore z ∧ daysBefore z ≤ 2 ^ 50 := fun z _ _ => by unfold daysBefore; omega
  have hyl : 365 ≤ yearLen y ∧ yearLen y ≤ 366 := by unfold yearLen; split <;> omega
  have s1 := daysBefore_succ (y - 1)
  have s2 := daysBefore_succ y
  have b1 := hb (y - 1) (by omega) (by omega)
  have b2 := hb y (by omega) (by omega)
  have b3 := hb (y + 1) (by omega) (by omega)
  rw [Int.sub_add_cancel] at s1
  unfold fixYear
  split
  · rename_i hgt
    have hy2 : 1970 ≤ y - 1 := by
      refine Int.not_lt.1 fun hlt => ?_
      have : y = 1970 := by omega
      subst this
      have : daysBefore 1970 = 0 := rfl
      omega
    refine ⟨y - 1, ?_, h1, by rw [Int.sub_add_cancel]; omega, hy2, by omega⟩
    unfold sub
    rw [ck_ok (by omega) (by omega), bind_ok]
    simp only [hlen]
    rw [ck_ok (by omega) (by omega), bind_ok]
    have : daysBefore y - yearLen (y - 1) = daysBefore (y - 1) := by omega
    rw [this]
  · simp only [hlen]
    unfold add
    rw [ck_ok (by omega) (by omega), bind_ok]
    split
    · refine ⟨y + 1, ?_, by omega, by rw [Int.add_assoc]; exact h2, by omega, Int.le_refl _⟩
      rw [ck_ok (by omega) (by omega), bind_ok, bind_ok]
      have hl : (if (isLeapYear y || (y + 1) % 4 != 0) = true then false else isLeapYear (y + 1)) = isLeapYear (y + 1) := by
        split
        · rename_i hc
          symm
          rw [Bool.eq_false_iff]
          intro hl
          have hl' := (isLeapYear_iff _).1 hl
          simp only [Bool.or_eq_true, bne_iff_ne] at hc
          rcases hc with hc | hc
          · have hc' := (isLeapYear_iff _).1 hc
            unfold Leap at hl' hc'
            omega
          · unfold Leap at hl'
            omega
        · rfl
      rw [hl]
      have : daysBefore y + yearLen y = daysBefore (y + 1) := by omega
      rw [this]
    · exact ⟨y, rfl, by omega, by omega, hy, by omega⟩

/-- Days before a month, which are counted from 0. -/
def daysToMonth (leap : Bool) (m : Nat) : Int := (firstDays leap).getD m 0

theorem getMonth_table : ∀ leap : Bool, ∀ n : Fin 366, (n.val < 365 ∨ leap = true) →
    ∃ m : Fin 12, getMonth n.val leap = .ok (m.val, daysToMonth leap m.val) ∧ daysToMonth leap m.val ≤ n.val ∧ (n.val : Int) < daysToMonth leap (m.val + 1) := by
  decide +kernel

theorem daysToMonth_succ (y : Int) (m : Nat) (hm : m < 12) : daysToMonth (isLeapYear y) (m + 1) = daysToMonth (isLeapYear y) m + monthLen y (m + 1) := by
  have hm' : m = 0 ∨ m = 1 ∨ m = 2 ∨ m = 3 ∨ m = 4 ∨ m = 5 ∨ m = 6 ∨ m = 7 ∨ m = 8 ∨ m = 9 ∨ m = 10 ∨ m = 11 := by omega
  by_cases h : Leap y
  · have hl := (isLeapYear_iff y).2 h
    rw [hl]
    rcases hm' with rfl | rfl | rfl | rfl | rfl | rfl | rfl | rfl | rfl | rfl | rfl | rfl <;> simp [daysToMonth, firstDays, firstDayLeap, monthLen, h]
  · have hl : isLeapYear y = false := by rw [Bool.eq_false_iff]; exact fun c => h ((isLeapYear_iff y).1 c)
    rw [hl]
    rcases hm' with rfl | rfl | rfl | rfl | rfl | rfl | rfl | rfl | rfl | rfl | rfl | rfl <;> simp [daysToMonth, firstDays, firstDay, monthLen, h]

theorem daysToMonth_year (y : Int) : daysToMonth (isLeapYear y) 0 = 0 ∧ daysToMonth (isLeapYear y) 12 = yearLen y := by
  by_cases h : Leap y
  · rw [(isLeapYear_iff y).2 h]; unfold yearLen; rw [if_pos h]; decide
  · have hl : isLeapYear y = false := by rw [Bool.eq_false_iff]; exact fun c => h ((isLeapYear_iff y).1 c)
    rw [hl]; unfold yearLen; rw [if_neg h]; decide

theorem monthLen_pos (y m : Int) : 28 ≤ monthLen y m ∧ monthLen y m ≤ 31 := by
  unfold monthLen
  split
  · split <;> omega
  · split <;> omega

/-- Days since 1 January 1970. -/
def Date.number (x : Date) : Int := daysBefore x.year + daysToMonth (isLeapYear x.year) (x.month - 1).toNat + x.day - 1

theorem next_real (x : Date) (h : x.Real) : x.next.Real ∧ x.next.number = x.number + 1 := by
  obtain ⟨y, m, d⟩ := x
  obtain ⟨h1, h2, h3, h4⟩ := h
  simp only at h1 h2 h3 h4
  have hs := daysToMonth_succ y (m - 1).toNat (by omega)
  have e1 : ((m - 1).toNat : Int) + 1 = m := by omega
  have e2 : (m - 1).toNat + 1 = m.toNat := by omega
  rw [e1, e2] at hs
  have hp := monthLen_pos y
  unfold Date.next Date.Real Date.number
  simp only
  split
  · simp only; exact ⟨⟨h1, h2, by omega, by omega⟩, by omega⟩
  · split
    · have e3 : (m + 1 - 1).toNat = m.toNat := by omega
      have := hp (m + 1)
      simp only [e3]
      exact ⟨⟨by omega, by omega, by omega, by omega⟩, by omega⟩
    · have : m = 12 := by omega
      subst this
      have hy := daysBefore_succ y
      have h0 := (daysToMonth_year (y + 1)).1
      have h12 := (daysToMonth_year y).2
      have := monthLen_pos (y + 1) 1
      simp only
      refine ⟨⟨by omega, by omega, by omega, by omega⟩, ?_⟩
      have e4 : ((1 : Int) - 1).toNat = 0 := rfl
      have e5 : (12 : Int).toNat = 12 := rfl
      rw [e5] at hs
      rw [e4, h0]
      omega

theorem dateOf_spec (n : Nat) : (dateOf n).Real ∧ (dateOf n).number = n := by
  induction n with
  | zero => exact ⟨⟨by decide, by decide, by decide, by decide⟩, rfl⟩
  | succ n ih =>
    obtain ⟨h1, h2⟩ := next_real _ ih.1
    exact ⟨h1, by rw [dateOf, h2, ih.2]; omega⟩

theorem daysToMonth_mono (y : Int) (a b : Nat) (hab : a ≤ b) (hb : b ≤ 12) : daysToMonth (isLeapYear y) a ≤ daysToMonth (isLeapYear y) b := by
  induction b with
  | zero => rw [Nat.le_zero.1 hab]; exact Int.le_refl _
  | succ b ih =>
    rcases Nat.lt_or_ge a (b + 1) with h | h
    · have := ih (by omega) (by omega)
      have := daysToMonth_succ y b (by omega)
      have := monthLen_pos y (b + 1)
      omega
    · rw [show a = b + 1 by omega]; exact Int.le_refl _

theorem number_bounds (x : Date) (h : x.Real) : daysBefore x.year ≤ x.number ∧ x.number < daysBefore (x.year + 1) := by
  obtain ⟨y, m, d⟩ := x
  obtain ⟨h1, h2, h3, h4⟩ := h
  simp only at h1 h2 h3 h4
  have hs := daysToMonth_succ y (m - 1).toNat (by omega)
  have e1 : ((m - 1).toNat : Int) + 1 = m := by omega
  rw [e1] at hs
  have hy := daysBefore_succ y
  obtain ⟨h0, h12⟩ := daysToMonth_year y
  have m1 := daysToMonth_mono y 0 (m - 1).toNat (by omega) (by omega)
  have m2 := daysToMonth_mono y ((m - 1).toNat + 1) 12 (by omega) (by omega)
  unfold Date.number
  simp only
  omega

theorem daysBefore_mono (a b : Int) (h : a ≤ b) : daysBefore a ≤ daysBefore b := by unfold daysBefore; omega

theorem number_inj (x x' : Date) (h : x.Real) (h' : x'.Real) (e : x.number = x'.number) : x = x' := by
  have b := number_bounds x h
  have b' := number_bounds x' h'
  have hy : x.year = x'.year := by
    rcases Int.lt_trichotomy x.year x'.year with hlt | heq | hlt
    · have := daysBefore_mono (x.year + 1) x'.year (by omega); omega
    · exact heq
    · have := daysBefore_mono (x'.year + 1) x.year (by omega); omega
  obtain ⟨y, m, d⟩ := x
  obtain ⟨y', m', d'⟩ := x'
  obtain ⟨h1, h2, h3, h4⟩ := h
  obtain ⟨h1', h2', h3', h4'⟩ := h'
  simp only at hy h1 h2 h3 h4 h1' h2' h3' h4'
  subst hy
  unfold Date.number at e
  simp only at e
  have hs := daysToMonth_succ y (m - 1).toNat (by omega)
  have hs' := daysToMonth_succ y (m' - 1).toNat (by omega)
  have e1 : ((m - 1).toNat : Int) + 1 = m := by omega
  have e2 : ((m' - 1).toNat : Int) + 1 = m' := by omega
  rw [e1] at hs
  rw [e2] at hs'
  have hm : m = m' := by
    rcases Int.lt_trichotomy m m' with hlt | heq | hlt
    · have := daysToMonth_mono y ((m - 1).toNat + 1) (m' - 1).toNat (by omega) (by omega); omega
    · exact heq
    · have := daysToMonth_mono y ((m' - 1).toNat + 1) (m - 1).toNat (by omega) (by omega); omega
  subst hm
  rw [show d = d' by omega]

theorem dateOf_eq (x : Date) (n : Nat) (h : x.Real) (e : x.number = n) : dateOf n = x :=
  number_inj _ _ (dateOf_spec n).1 h ((dateOf_spec n).2.trans e.symm)

/-- **C41**, from a timestamp: no operation overflows, and the fields are the date and the time of day. -/
theorem C41_fields (ts : Int) (h0 : 0 ≤ ts) (h1 : ts < 2 ^ 63) : ∃ f us n, fromTimestamp ts = .ok f ∧ f.us = some us ∧ Time f.hour f.minute f.second us ∧
    dateOf n = ⟨f.year, f.month, f.day⟩ ∧ stamp n f.hour f.minute f.second us = ts ∧ (f.leap = true ↔ Leap f.year) ∧ f.timestamp = ts := by
  obtain ⟨n, hn⟩ := Int.eq_ofNat_of_zero_le (show 0 ≤ ts / 1000000 / 60 / 60 / 24 by omega)
  have hn27 : n < 2 ^ 27 := by omega
  obtain ⟨e1, e2⟩ := yearsBefore_spec n (by omega)
  have e3 := yearsBefore_le n hn27
  have hbig : ∀ z : Int, 1900 ≤ z → z ≤ 500000 → -2 ^ 50 ≤ daysBefore z ∧ daysBefore z ≤ 2 ^ 50 := fun z _ _ => by unfold daysBefore; omega
  obtain ⟨y, hf, hy1, hy2, hy3, hy4⟩ := fixYear_spec (yearsBefore n + 1970) n (by omega) (by omega) (by omega) (by rw [show (yearsBefore n : Int) + 1970 - 1 = yearsBefore n + 1969 by omega]; exact e1)
    (by rw [show (yearsBefore n : Int) + 1970 + 2 = yearsBefore n + 1972 by omega]; exact e2)
  have hs := daysBefore_succ y
  have hyl : 365 ≤ yearLen y ∧ yearLen y ≤ 366 ∧ (yearLen y = 366 → isLeapYear y = true) := by
    unfold yearLen; split
    · rename_i hl; exact ⟨by omega, by omega, fun _ => (isLeapYear_iff y).2 hl⟩
    · omega
  have hb := hbig y (by omega) (by omega)
  obtain ⟨d, hd⟩ := Int.eq_ofNat_of_zero_le (show 0 ≤ (n : Int) - daysBefore y by omega)
  obtain ⟨m, hm1, hm2, hm3⟩ := getMonth_table (isLeapYear y) ⟨d, by omega⟩ (by
    simp only
    rcases Int.lt_or_le (yearLen y) 366 with h | h
    · exact .inl (by omega)
    · exact .inr (hyl.2.2 (by omega)))
  simp only at hm1 hm2 hm3
  have hmon := daysToMonth_succ y m.val m.isLt
  have hml := monthLen_pos y (m.val + 1)
  have hm0 := daysToMonth_mono y 0 m.val (by omega) (by omega)
  rw [(daysToMonth_year y).1] at hm0
  have hm12 := m.isLt
  have t1 : ts.tdiv 1000000 = ts / 1000000 := Int.tdiv_eq_ediv_of_nonneg h0
  have t2 : (ts / 1000000).tdiv 60 = ts / 1000000 / 60 := Int.tdiv_eq_ediv_of_nonneg (by omega)
  have t3 : (ts / 1000000 / 60).tdiv 60 = ts / 1000000 / 60 / 60 := Int.tdiv_eq_ediv_of_nonneg (by omega)
  have t4 : (ts / 1000000 / 60 / 60).tdiv 24 = ts / 1000000 / 60 / 60 / 24 := Int.tdiv_eq_ediv_of_nonneg (by omega)
  have u1 : ts.tmod 1000000 = ts % 1000000 := Int.tmod_eq_emod_of_nonneg h0
  have u2 : (ts / 1000000).tmod 60 = ts / 1000000 % 60 := Int.tmod_eq_emod_of_nonneg (by omega)
  have u3 : (ts / 1000000 / 60).tmod 60 = ts / 1000000 / 60 % 60 := Int.tmod_eq_emod_of_nonneg (by omega)
  have u4 : (ts / 1000000 / 60 / 60).tmod 24 = ts / 1000000 / 60 / 60 % 24 := Int.tmod_eq_emod_of_nonneg (by omega)
  have er : fromTimestamp ts = .ok ⟨some (ts % 1000000), ts / 1000000 % 60, ts / 1000000 / 60 % 60, ts / 1000000 / 60 / 60 % 24,
      d - daysToMonth (isLeapYear y) m.val + 1, m.val + 1, y, isLeapYear y, ts⟩ := by
    unfold fromTimestamp
    simp only
    rw [t1, t2, t3, t4, u1, u2, u3, u4, hn]
    simp only [Int.toNat_natCast]
    unfold add sub
    rw [ck_ok (by omega) (by omega), bind_ok, firstDayFromYear_eq _ (by omega) (by omega), bind_ok, hf, bind_ok]
    simp only
    rw [ck_ok (by omega) (by omega), bind_ok, hd, hm1, bind_ok]
    simp only
    rw [ck_ok (by omega) (by omega), bind_ok, ck_ok (by omega) (by omega), bind_ok, ck_ok (by omega) (by omega), bind_ok]
  refine ⟨_, _, n, er, rfl, ⟨?_, ?_, ?_, ?_, ?_, ?_, ?_, ?_⟩, ?_, ?_, isLeapYear_iff y, rfl⟩
  iterate 8 ((try dsimp only); omega)
  · refine dateOf_eq _ n ⟨?_, ?_, ?_, ?_⟩ ?_
    iterate 4 ((try dsimp only); omega)
    unfold Date.number
    simp only
    rw [show ((m.val : Int) + 1 - 1).toNat = m.val by omega]
    omega
  · unfold stamp
    simp only
    omega

/-- Field checks. -/
theorem dateCheck_some (v a b : Int) : dateCheck (some v) a b = if a ≤ v ∧ v ≤ b then .ok v else .thr := by
  unfold dateCheck
  simp only
  by_cases h : a ≤ v ∧ v ≤ b
  · rw [if_pos h, if_neg (by omega)]
  · rw [if_neg h, if_pos (by omega)]

theorem elem_ok (leap : Bool) (m : Nat) (hm : m ≤ 12) : elem (firstDays leap) m = .ok (daysToMonth leap m) := by
  have : ∀ leap : Bool, ∀ m : Fin 13, elem (firstDays leap) m.val = .ok (daysToMonth leap m.val) := by decide +kernel
  exact this leap ⟨m, by omega⟩

/-- What the fields have to be so that they are accepted. -/
def Accepted (y m d h mi s : Int) (us : Option Int) : Prop :=
  1970 ≤ y ∧ y ≤ 290307 ∧ 1 ≤ m ∧ m ≤ 12 ∧ 1 ≤ d ∧ d ≤ 31 ∧ d ≤ monthLen y m + 1 ∧ Time h mi s (us.getD 0)

theorem fromFields_eq (y m d h mi s : Int) (us : Option Int) : (Accepted y m d h mi s us → fromFields (some y) (some m) (some d) (some h) (some mi) (some s) us =
    .ok ⟨us, s, mi, h, d, m, y, isLeapYear y, (((Date.number ⟨y, m, d⟩ * 24 + h) * 60 + mi) * 60 + s) * 1000000 + us.getD 0⟩) ∧
    (¬ Accepted y m d h mi s us → fromFields (some y) (some m) (some d) (some h) (some mi) (some s) us = .thr) := by
  unfold Accepted Time fromFields
  simp only [dateCheck_some]
  by_cases hy : 1970 ≤ y ∧ y ≤ 290307
  rotate_left
  · rw [if_neg hy, bind_thr]; exact ⟨fun a => (hy ⟨a.1, a.2.1⟩).elim, fun _ => rfl⟩
  rw [if_pos hy, bind_ok]
  by_cases hm : 1 ≤ m ∧ m ≤ 12
  rotate_left
  · rw [if_neg hm, bind_thr]; exact ⟨fun a => (hm ⟨a.2.2.1, a.2.2.2.1⟩).elim, fun _ => rfl⟩
  rw [if_pos hm, bind_ok]
  by_cases hd : 1 ≤ d ∧ d ≤ 31
  rotate_left
  · rw [if_neg hd, bind_thr]; exact ⟨fun a => (hd (by omega)).elim, fun _ => rfl⟩
  rw [if_pos hd, bind_ok]
  by_cases hh : 0 ≤ h ∧ h ≤ 23
  rotate_left
  · rw [if_neg hh, bind_thr]; exact ⟨fun a => (hh (by omega)).elim, fun _ => rfl⟩
  rw [if_pos hh, bind_ok]
  by_cases hmi : 0 ≤ mi ∧ mi ≤ 59
  rotate_left
  · rw [if_neg hmi, bind_thr]; exact ⟨fun a => (hmi (by omega)).elim, fun _ => rfl⟩
  rw [if_pos hmi, bind_ok]
  simp only [Option.getD_some]
  by_cases hs : 0 ≤ s ∧ s ≤ 59
  rotate_left
  · rw [if_neg hs, bind_thr]; exact ⟨fun a => (hs (by omega)).elim, fun _ => rfl⟩
  rw [if_pos hs, bind_ok]
  have hus : checkUs us = if 0 ≤ us.getD 0 ∧ us.getD 0 ≤ 999999 then R.ok us else .thr := by
    cases us with
    | none => rfl
    | some u =>
      simp only [Option.getD_some, checkUs, dateCheck_some]
      by_cases h : 0 ≤ u ∧ u ≤ 999999
      · rw [if_pos h, if_pos h]; rfl
      · rw [if_neg h, if_neg h]; rfl
  rw [hus]
  by_cases hu : 0 ≤ us.getD 0 ∧ us.getD 0 ≤ 999999
  rotate_left
  · rw [if_neg hu, bind_thr]; exact ⟨fun a => (hu (by omega)).elim, fun _ => rfl⟩
  rw [if_pos hu, bind_ok]
  have hsm := daysToMonth_succ y (m - 1).toNat (by omega)
  have q1 : ((m - 1).toNat : Int) + 1 = m := by omega
  have q2 : (m - 1).toNat + 1 = m.toNat := by omega
  rw [q1, q2] at hsm
  have hml := monthLen_pos y m
  have m0 := daysToMonth_mono y 0 (m - 1).toNat (by omega) (by omega)
  have m12 := daysToMonth_mono y m.toNat 12 (by omega) (by omega)
  rw [(daysToMonth_year y).1] at m0
  rw [(daysToMonth_year y).2] at m12
  have hyl : 365 ≤ yearLen y ∧ yearLen y ≤ 366 := by unfold yearLen; split <;> omega
  have hb : 0 ≤ daysBefore y ∧ daysBefore y ≤ 106000000 := by unfold daysBefore; omega
  rw [firstDayFromYear_eq y (by omega) (by omega), bind_ok, elem_ok _ _ (by omega), bind_ok]
  unfold add sub mul
  rw [ck_ok (by omega) (by omega), bind_ok, elem_ok _ _ (by omega), bind_ok, ck_ok (by omega) (by omega), bind_ok, ck_ok (by omega) (by omega), bind_ok]
  by_cases hday : d ≤ monthLen y m + 1
  rotate_left
  · rw [if_neg (by omega), bind_thr]; exact ⟨fun a => (hday (by omega)).elim, fun _ => rfl⟩
  rw [if_pos (by omega), bind_ok, ck_ok (by omega) (by omega), bind_ok, ck_ok (by omega) (by omega), bind_ok, ck_ok (by omega) (by omega), bind_ok, ck_ok (by omega) (by omega), bind_ok,
    ck_ok (by omega) (by omega), bind_ok, ck_ok (by omega) (by omega), bind_ok, ck_ok (by omega) (by omega), bind_ok, ck_ok (by omega) (by omega), bind_ok, ck_ok (by omega) (by omega), bind_ok]
  refine ⟨fun _ => ?_, fun a => (a ⟨hy.1, hy.2, hm.1, hm.2, hd.1, hd.2, hday, hh.1, hh.2, hmi.1, hmi.2, hs.1, hs.2, hu.1, hu.2⟩).elim⟩
  have hnum : Date.number ⟨y, m, d⟩ = daysBefore y + daysToMonth (isLeapYear y) (m - 1).toNat + (d - 1) := by unfold Date.number; simp only; omega
  rw [hnum]
  cases us with
  | none => simp only [addUs, bind_ok, Option.getD_none, Int.add_zero]
  | some u =>
    simp only [Option.getD_some, addUs] at hu ⊢
    unfold add
    by_cases h0 : u = 0
    · rw [if_pos h0, bind_ok]; subst h0; simp only [Int.add_zero]
    · rw [if_neg h0, ck_ok (by omega) (by omega), bind_ok]

/-- The days are numbered in order, so that later dates have larger numbers: every date since 1970 is that of some day. -/
theorem dateOf_onto (x : Date) (h : x.Real) (hy : 1970 ≤ x.year) : ∃ n : Nat, dateOf n = x := by
  have b := number_bounds x h
  have h0 : daysBefore 1970 = 0 := rfl
  have hm := daysBefore_mono 1970 x.year hy
  obtain ⟨n, hn⟩ := Int.eq_ofNat_of_zero_le (show 0 ≤ x.number by omega)
  exact ⟨n, dateOf_eq x n h hn⟩

/-- **C41**, from fields: a date which exists is accepted with every time of day, and the timestamp is the number of microseconds until then.  What is
missing: years after 290307 (`C41_year_violated`). -/
theorem C41_build_partial (n : Nat) (h mi s us : Int) (ht : Time h mi s us) (hy : (dateOf n).year ≤ 290307) :
    ∃ f, fromFields (some (dateOf n).year) (some (dateOf n).month) (some (dateOf n).day) (some h) (some mi) (some s) (some us) = .ok f ∧ f.timestamp = stamp n h mi s us ∧
      f.year = (dateOf n).year ∧ f.month = (dateOf n).month ∧ f.day = (dateOf n).day ∧ f.hour = h ∧ f.minute = mi ∧ f.second = s ∧ f.us = some us ∧ (f.leap = true ↔ Leap f.year) := by
  obtain ⟨⟨r1, r2, r3, r4⟩, hn⟩ := dateOf_spec n
  have hb := number_bounds (dateOf n) ⟨r1, r2, r3, r4⟩
  have hml := monthLen_pos (dateOf n).year (dateOf n).month
  have hy0 : 1970 ≤ (dateOf n).year := by
    refine Int.not_lt.1 fun hlt => ?_
    have := daysBefore_mono ((dateOf n).year + 1) 1970 (by omega)
    have h0 : daysBefore 1970 = 0 := rfl
    omega
  have e := (fromFields_eq (dateOf n).year (dateOf n).month (dateOf n).day h mi s (some us)).1 ⟨hy0, hy, r1, r2, r3, by omega, by omega, ht⟩
  refine ⟨_, e, ?_, rfl, rfl, rfl, rfl, rfl, rfl, rfl, isLeapYear_iff _⟩
  have : Date.number ⟨(dateOf n).year, (dateOf n).month, (dateOf n).day⟩ = n := hn
  simp only [this, Option.getD_some]
  rfl

/-- **C41**, there and back: the fields of a timestamp give the timestamp.  What is missing: years after 290307 (`C41_year_violated`). -/
theorem C41_back_partial (ts : Int) (h0 : 0 ≤ ts) (h1 : ts < 2 ^ 63) (f : Fields) (hf : fromTimestamp ts = .ok f) (hy : f.year ≤ 290307) :
    fromFields (some f.year) (some f.month) (some f.day) (some f.hour) (some f.minute) (some f.second) f.us = .ok f := by
  obtain ⟨f', us, n, e, e1, e2, e3, e4, e5, e6⟩ := C41_fields ts h0 h1
  rw [hf] at e
  cases e
  obtain ⟨f2, g0, g1, g2, g3, g4, g5, g6, g7, g8, g9⟩ := C41_build_partial n f.hour f.minute f.second us e2 (by rw [e3]; exact hy)
  rw [e3] at g0 g2 g3 g4
  simp only at g0 g2 g3 g4
  rw [e1, g0]
  have hl : f2.leap = f.leap := by
    rw [Bool.eq_iff_iff, g9, e5, g2]
  obtain ⟨a1, a2, a3, a4, a5, a6, a7, a8, a9⟩ := f
  obtain ⟨b1, b2, b3, b4, b5, b6, b7, b8, b9⟩ := f2
  simp only at g1 g2 g3 g4 g5 g6 g7 g8 hl e1 e4 e6
  subst g2 g3 g4 g5 g6 g7 g8 hl e1
  rw [g1, e4, e6]

/-- **C41**, which fields are accepted, when all are given.  Fields are rejected if the date does not exist, except for the day after the end of
a month with less than 31 days (`C41_day_violated`). -/
theorem C41_accept_partial (y m d h mi s us : Int) : (∃ f, fromFields (some y) (some m) (some d) (some h) (some mi) (some s) (some us) = .ok f) ↔
    (1970 ≤ y ∧ y ≤ 290307 ∧ Time h mi s us ∧ (Date.Real ⟨y, m, d⟩ ∨ (1 ≤ m ∧ m ≤ 12 ∧ d = monthLen y m + 1 ∧ d ≤ 31))) := by
  have hml := monthLen_pos y m
  constructor
  · rintro ⟨f, hf⟩
    by_cases ha : Accepted y m d h mi s (some us)
    · obtain ⟨p1, p2, p3, p4, p5, p6, p7, p8⟩ := ha
      refine ⟨p1, p2, p8, ?_⟩
      by_cases hd : d ≤ monthLen y m
      · exact .inl ⟨p3, p4, p5, hd⟩
      · exact .inr ⟨p3, p4, by omega, p6⟩
    · rw [(fromFields_eq y m d h mi s (some us)).2 ha] at hf
      cases hf
  · rintro ⟨p1, p2, p3, p4⟩
    refine ⟨_, (fromFields_eq y m d h mi s (some us)).1 ?_⟩
    rcases p4 with ⟨q1, q2, q3, q4⟩ | ⟨q1, q2, q3, q4⟩
    · simp only at q1 q2 q3 q4
      exact ⟨p1, p2, q1, q2, q3, by omega, by omega, p3⟩
    · exact ⟨p1, p2, q1, q2, by omega, q4, by omega, p3⟩

/-- A date that does not exist and is not rejected is taken for the first day of the next month. -/
theorem C41_overflow (y m d h mi s us : Int) (f : Fields) (hf : fromFields (some y) (some m) (some d) (some h) (some mi) (some s) (some us) = .ok f)
    (hr : ¬ Date.Real ⟨y, m, d⟩) : ∃ f', fromFields (some y) (some (m + 1)) (some 1) (some h) (some mi) (some s) (some us) = .ok f' ∧ f'.timestamp = f.timestamp := by
  obtain ⟨p1, p2, p3, p4⟩ := (C41_accept_partial y m d h mi s us).1 ⟨f, hf⟩
  rcases p4 with p4 | ⟨q1, q2, q3, q4⟩
  · exact (hr p4).elim
  have hm : m < 12 := by
    refine Int.not_le.1 fun hle => ?_
    have : m = 12 := by omega
    subst this
    have : monthLen y 12 = 31 := rfl
    omega
  have hml := monthLen_pos y m
  have hml' := monthLen_pos y (m + 1)
  have e := (fromFields_eq y m d h mi s (some us)).1 ⟨p1, p2, q1, q2, by omega, q4, by omega, p3⟩
  have e' := (fromFields_eq y (m + 1) 1 h mi s (some us)).1 ⟨p1, p2, by omega, by omega, by omega, by omega, by omega, p3⟩
  refine ⟨_, e', ?_⟩
  rw [hf] at e
  cases e
  have hs := daysToMonth_succ y (m - 1).toNat (by omega)
  have q1 : ((m - 1).toNat : Int) + 1 = m := by omega
  have q2 : (m - 1).toNat + 1 = m.toNat := by omega
  rw [q1, q2] at hs
  have : Date.number ⟨y, m + 1, 1⟩ = Date.number ⟨y, m, d⟩ := by
    unfold Date.number
    simp only
    rw [show (m + 1 - 1).toNat = m.toNat by omega]
    omega
  simp only [this]

/-- **C41**, the constructor: one argument is a timestamp, a timestamp excludes other fields, and all fields down to the minute are needed. -/
theorem C41_construct (ts y m d h mi : Int) (s us : Option Int) :
    construct (some ts) none none none none none none none = fromTimestamp ts ∧
    construct none none none none none none none (some ts) = fromTimestamp ts ∧
    construct (some y) none none none none none none (some ts) = .thr ∧
    construct (some y) (some m) (some d) (some h) (some mi) s us none = fromFields (some y) (some m) (some d) (some h) (some mi) (some (s.getD 0)) us ∧
    (∀ y' m' d' h' mi' : Option Int, ¬ (m' = none ∧ d' = none ∧ h' = none ∧ mi' = none ∧ s = none ∧ us = none) →
      (y' = none ∨ m' = none ∨ d' = none ∨ h' = none ∨ mi' = none) → ∀ f, construct y' m' d' h' mi' s us none ≠ .ok f) := by
  refine ⟨rfl, rfl, rfl, rfl, fun y' m' d' h' mi' hn hx f hf => ?_⟩
  unfold construct at hf
  rw [if_neg (fun c => hn c.2)] at hf
  simp only [fromFields] at hf
  have hbind : ∀ {α : Type} {v : Option Int} {a b : Int} {k : Int → R α} {x : α}, (dateCheck v a b >>= k) = .ok x → v ≠ none ∧ ∃ w, k w = .ok x := by
    intro α v a b k x h
    cases v with
    | none => cases h
    | some v =>
      rw [dateCheck_some] at h
      split at h
      · exact ⟨by simp, v, h⟩
      · cases h
  obtain ⟨n1, _, hf⟩ := hbind hf
  obtain ⟨n2, _, hf⟩ := hbind hf
  obtain ⟨n3, _, hf⟩ := hbind hf
  obtain ⟨n4, _, hf⟩ := hbind hf
  obtain ⟨n5, _, hf⟩ := hbind hf
  rcases hx with hx | hx | hx | hx | hx <;> contradiction

/- Counterexamples -/

/-- 29 February 2021 is accepted, and so is 31 April. -/
theorem C41_day_violated : (∃ f, construct (some 2021) (some 2) (some 29) (some 0) (some 0) none none none = .ok f) ∧ ¬ Date.Real ⟨2021, 2, 29⟩ ∧
    (∃ f, construct (some 2021) (some 4) (some 31) (some 0) (some 0) none none none = .ok f) ∧ ¬ Date.Real ⟨2021, 4, 31⟩ := by
  refine ⟨⟨⟨none, 0, 0, 0, 29, 2, 2021, false, 1614556800000000⟩, by decide +kernel⟩, ?_, ⟨⟨none, 0, 0, 0, 31, 4, 2021, false, 1619827200000000⟩, by decide +kernel⟩, ?_⟩
  · rintro ⟨-, -, -, h⟩; revert h; decide
  · rintro ⟨-, -, -, h⟩; revert h; decide

/-- The fields of the last timestamps are rejected. -/
theorem C41_year_violated : ∃ f, fromTimestamp (2 ^ 63 - 1) = .ok f ∧ f.year = 294247 ∧
    fromFields (some f.year) (some f.month) (some f.day) (some f.hour) (some f.minute) (some f.second) f.us = .thr := by
  refine ⟨⟨some 775807, 54, 0, 4, 10, 1, 294247, false, 2 ^ 63 - 1⟩, by decide +kernel, rfl, by decide +kernel⟩

theorem C41_violated : ¬ C41_full := fun h => by
  obtain ⟨f, hf⟩ := C41_day_violated.1
  exact C41_day_violated.2.1 (h.2 2021 2 29 _ _ _ _ ⟨f, hf⟩)

/- Examples -/

/-- The last second of February in the leap year 2000. -/
example : (∃ f, fromTimestamp 951868799000000 = .ok f ∧ f.year = 2000 ∧ f.month = 2 ∧ f.day = 29 ∧ f.hour = 23 ∧ f.leap = true) :=
  ⟨⟨some 0, 59, 59, 23, 29, 2, 2000, true, 951868799000000⟩, by decide +kernel, rfl, rfl, rfl, rfl, rfl⟩

/-- 1900 and 2100 are not leap years. -/
example : ¬ Leap 1900 ∧ ¬ Leap 2100 ∧ Leap 2000 ∧ Leap 2024 := by decide

example : fromFields (some 2100) (some 3) (some 0) (some 0) (some 0) (some 0) (some 0) = .thr := by decide +kernel

end Verif.Datetime
