import Verif.Misc.ParseDoubleLemmas
import Verif.Misc.FloatSpec
import Verif.Props.C01
/-
How `kos_parse_double` takes a literal apart.
-/
namespace Verif.Misc
open Spec

theorem positional_zeros (z ds : List Nat) (hz : ∀ d ∈ z, d = 0) : positional 10 (z ++ ds) = positional 10 ds := by
  induction z with
  | nil => rfl
  | cons d z ih =>
    rw [List.cons_append, positional, hz d List.mem_cons_self, Nat.zero_mul, Nat.zero_add]
    exact ih (fun x hx => hz x (List.mem_cons_of_mem _ hx))

theorem positional_zero (z : List Nat) (hz : ∀ d ∈ z, d = 0) : positional 10 z = 0 := by
  have := positional_zeros z [] hz
  simpa [positional] using this

theorem skipZeros_body (b r : List Nat) (dot dexp : Int) (hb : Digits b) :
    ((∀ d ∈ digs b, d = 0) ∧ skipZeros (b ++ r) dot dexp = skipZeros r dot (dexp - if dot ≥ 0 then (digs b).length else 0)) ∨
    (∃ b1 c b2, b = b1 ++ c :: b2 ∧ (∀ d ∈ digs b1, d = 0) ∧ (49 ≤ c ∧ c ≤ 57) ∧
      skipZeros (b ++ r) dot dexp = (c :: (b2 ++ r), dot, dexp - if dot ≥ 0 then (digs b1).length else 0)) := by
  induction b generalizing dexp with
  | nil => left; simp [digs]
  | cons c b ih =>
    have hb' : Digits b := fun x hx => hb x (List.mem_cons_of_mem _ hx)
    rcases hb c List.mem_cons_self with hc | hc
    · have hd : ¬ (48 ≤ c ∧ c ≤ 57) := by omega
      have hs : skipZeros (c :: b ++ r) dot dexp = skipZeros (b ++ r) dot dexp := by
        rw [List.cons_append, skipZeros, if_pos hc]
      rcases ih dexp hb' with ⟨h1, h2⟩ | ⟨b1, c', b2, h1, h2, h3, h4⟩
      · left; rw [digs_other c b hd, hs]; exact ⟨h1, h2⟩
      · right; exact ⟨c :: b1, c', b2, by rw [h1]; rfl, by rw [digs_other c b1 hd]; exact h2, h3, by rw [hs, digs_other c b1 hd]; exact h4⟩
    · by_cases h0 : c = 48
      · have hs : skipZeros (c :: b ++ r) dot dexp = skipZeros (b ++ r) dot (if dot ≥ 0 then dexp - 1 else dexp) := by
          rw [List.cons_append, skipZeros, if_neg (by omega), if_pos h0]
        rcases ih (if dot ≥ 0 then dexp - 1 else dexp) hb' with ⟨h1, h2⟩ | ⟨b1, c', b2, h1, h2, h3, h4⟩
        · left
          rw [digs_digit c b hc, hs, h2]
          refine ⟨?_, ?_⟩
          · intro d hd
            rcases List.mem_cons.1 hd with rfl | hd
            · omega
            · exact h1 d hd
          · congr 1
            simp only [List.length_cons]
            split <;> omega
        · right
          refine ⟨c :: b1, c', b2, by rw [h1]; rfl, ?_, h3, ?_⟩
          · rw [digs_digit c b1 hc]
            intro d hd
            rcases List.mem_cons.1 hd with rfl | hd
            · omega
            · exact h2 d hd
          · rw [hs, h4, digs_digit c b1 hc]
            simp only [List.length_cons, Prod.mk.injEq, true_and]
            split <;> omega
      · right
        refine ⟨[], c, b, rfl, by simp [digs], by omega, ?_⟩
        rw [List.cons_append, skipZeros, if_neg (by omega), if_neg h0, if_neg (by omega)]
        simp [digs]

theorem findExponent_body (b r : List Nat) (num : Nat) (dot : Int) (hb : Digits b) :
    findExponent (b ++ r) num dot = (findExponent r (num + (digs b).length) dot).map (fun x => (b ++ x.1, x.2)) := by
  induction b generalizing num with
  | nil => simp [digs]
  | cons c b ih =>
    have hb' : Digits b := fun x hx => hb x (List.mem_cons_of_mem _ hx)
    rcases hb c List.mem_cons_self with hc | hc
    · have hd : ¬ (48 ≤ c ∧ c ≤ 57) := by omega
      rw [List.cons_append, findExponent, if_neg hd, if_neg (by omega), if_pos hc, ih num hb', digs_other c b hd, Option.map_map]
      rfl
    · rw [List.cons_append, findExponent, if_pos hc, ih (num + 1) hb', digs_digit c b hc, Option.map_map]
      simp only [List.length_cons]
      rw [show num + 1 + (digs b).length = num + ((digs b).length + 1) by omega]
      rfl

/-- What follows the digits. -/
def Tail (t : List Nat) : Prop := t = [] ∨ ∃ c s, t = c :: s ∧ (c = 101 ∨ c = 69)

theorem findExponent_tail (t : List Nat) (num : Nat) (dot : Int) (ht : Tail t) : findExponent t num dot = some ([], t, num, dot) := by
  rcases ht with rfl | ⟨c, s, rfl, hc⟩
  · rfl
  · rw [findExponent, if_neg (by omega), if_pos hc]

theorem skipZeros_tail (t : List Nat) (dot dexp : Int) (ht : Tail t) : skipZeros t dot dexp = (t, dot, dexp) := by
  rcases ht with rfl | ⟨c, s, rfl, hc⟩
  · rfl
  · rw [skipZeros, if_neg (by omega), if_neg (by omega), if_neg (by omega)]

/-- From mantissa and decimal exponent to the double. -/
def finishDouble (sign : Bool) (m : Nat) (e dexp : Int) : DblRes :=
  match applyExponent m e dexp with
  | none => .ub
  | some (m, e) => assemble sign m e

/-- The digits from the first one which is not zero, once it is known where the exponent is. -/
def digitsDouble (sign : Bool) (w t : List Nat) (dexp : Int) : DblRes :=
  match exponentOf t with
  | .err => .err
  | .ub => .ub
  | .ok e =>
    let r := digitLoop (digs w).length w 0 0 0 (dexp + e)
    finishDouble sign r.1 r.2.1 r.2.2

/-- A number whose digits are all zero. -/
def zeroDouble (sign : Bool) (t : List Nat) : DblRes :=
  match exponentOf t with
  | .err => .err
  | .ub => .ub
  | .ok _ => assemble sign 0 0

theorem parseMagnitude_zero (sign : Bool) (s t : List Nat) (dot dexp : Int) (ht : Tail t) (hs : skipZeros s (-1) 0 = (t, dot, dexp)) :
    parseMagnitude sign s = zeroDouble sign t := by
  unfold parseMagnitude zeroDouble
  rw [hs]
  rcases ht with rfl | ⟨c, s', rfl, hc⟩
  · rfl
  · simp only [List.cons_ne_nil, if_false]
    rw [findExponent_tail _ _ _ (Or.inr ⟨c, s', rfl, hc⟩)]
    simp only [if_true]
    cases exponentOf (c :: s') <;> rfl

theorem parseMagnitude_digits (sign : Bool) (s w t : List Nat) (dot dot' dexp : Int) (hne : w ++ t ≠ [])
    (hs : skipZeros s (-1) 0 = (w ++ t, dot, dexp)) (hf : findExponent (w ++ t) 0 dot = some (w, t, (digs w).length, dot'))
    (hn : (digs w).length ≠ 0) :
    parseMagnitude sign s = digitsDouble sign w t (if dot' ≥ 0 then dexp + (dot' - (digs w).length) else dexp) := by
  unfold parseMagnitude digitsDouble finishDouble
  rw [hs]
  simp only [if_neg hne, hf, if_neg hn]
  cases exponentOf t with
  | err => rfl
  | ub => rfl
  | ok e =>
    simp only
    have : (if dot' ≥ 0 then dexp + e + (dot' - ((digs w).length : Int)) else dexp + e) =
        (if dot' ≥ 0 then dexp + (dot' - ((digs w).length : Int)) else dexp) + e := by split <;> omega
    rw [this]
    rfl

def fracOf : Option (List Nat) → List Nat
  | none => []
  | some f => 46 :: f

theorem fracText_eq (l : FloatLit) : l.fracText = fracOf l.frac := by
  unfold FloatLit.fracText; cases l.frac <;> rfl

/-- The digits of a literal from the first one which is not zero. -/
theorem parseMagnitude_spec (sign : Bool) (int : List Nat) (frac : Option (List Nat)) (t : List Nat) (hi : Digits int)
    (hf : ∀ f, frac = some f → Digits f) (ht : Tail t) :
    let ft := fracOf frac
    let ds := digs (int ++ frac.getD [])
    (positional 10 ds = 0 ∧ parseMagnitude sign (int ++ (ft ++ t)) = zeroDouble sign t) ∨
    (∃ c w, (49 ≤ c ∧ c ≤ 57) ∧ (∀ x ∈ w, BodyCh x) ∧ positional 10 (digs (c :: w)) = positional 10 ds ∧
      (digs (c :: w)).length ≤ ds.length ∧
      parseMagnitude sign (int ++ (ft ++ t)) = digitsDouble sign (c :: w) t (-((digs (frac.getD [])).length : Int))) := by
  intro ft ds
  have body : ∀ b : List Nat, Digits b → ∀ x ∈ b, BodyCh x := fun b hb x hx => by
    rcases hb x hx with h | h
    · exact Or.inl h
    · exact Or.inr (Or.inr h)
  have hds : ds = digs int ++ digs (frac.getD []) := List.filterMap_append ..
  have hpos : ∀ (c : Nat) (w : List Nat), 49 ≤ c ∧ c ≤ 57 → (digs (c :: w)).length ≠ 0 := by
    intro c w hc; rw [digs_digit c w (by omega)]; simp
  rcases skipZeros_body int (ft ++ t) (-1) 0 hi with ⟨hz, hs⟩ | ⟨b1, c, b2, hb, hz, hc, hs⟩
  · rw [if_neg (by omega)] at hs
    cases frac with
    | none =>
      left
      refine ⟨?_, ?_⟩
      · rw [hds]; simp only [Option.getD_none, List.append_nil, digs, List.filterMap_nil]; exact positional_zero _ hz
      · exact parseMagnitude_zero sign _ t (-1) (0 - 0) ht (by rw [hs]; exact skipZeros_tail t _ _ ht)
    | some f =>
      have hff := hf f rfl
      have hs2 : skipZeros (int ++ (ft ++ t)) (-1) 0 = skipZeros (f ++ t) 0 0 := by
        rw [hs]; show skipZeros (46 :: (f ++ t)) (-1) (0 - 0) = _
        rw [skipZeros, if_neg (by omega), if_neg (by omega), if_pos rfl]; rfl
      rcases skipZeros_body f t 0 0 hff with ⟨hz2, hs3⟩ | ⟨b1, c, b2, hb, hz2, hc, hs3⟩
      · left
        refine ⟨?_, ?_⟩
        · rw [hds, positional_zeros _ _ hz]; exact positional_zero _ hz2
        · rw [if_pos (by omega)] at hs3
          exact parseMagnitude_zero sign _ t 0 _ ht (by rw [hs2, hs3]; exact skipZeros_tail t _ _ ht)
      · right
        have hb2 : Digits b2 := fun x hx => hff x (by rw [hb]; simp [hx])
        have hcd : Digits (c :: b2) := fun x hx => hff x (by rw [hb]; exact List.mem_append_right _ hx)
        have hdf : digs f = digs b1 ++ digs (c :: b2) := by rw [hb]; exact List.filterMap_append ..
        refine ⟨c, b2, hc, body b2 hb2, ?_, ?_, ?_⟩
        · rw [hds, positional_zeros _ _ hz, Option.getD_some, hdf, positional_zeros _ _ hz2]
        · rw [hds, Option.getD_some, hdf]; simp only [List.length_append]; omega
        · have hfe : findExponent (c :: b2 ++ t) 0 0 = some (c :: b2, t, (digs (c :: b2)).length, 0) := by
            rw [findExponent_body _ _ _ _ hcd, findExponent_tail _ _ _ ht]; simp
          rw [if_pos (by omega)] at hs3
          rw [parseMagnitude_digits sign _ (c :: b2) t 0 0 (0 - (digs b1).length) (by simp) (by rw [hs2, hs3]; rfl) hfe (hpos c b2 hc)]
          congr 1
          rw [Option.getD_some, hdf]; simp only [List.length_append]
          rw [if_pos (by omega)]; omega
  · rw [if_neg (by omega)] at hs
    right
    have hb2 : Digits b2 := fun x hx => hi x (by rw [hb]; simp [hx])
    have hcd : Digits (c :: b2) := fun x hx => hi x (by rw [hb]; exact List.mem_append_right _ hx)
    have hdi : digs int = digs b1 ++ digs (c :: b2) := by rw [hb]; exact List.filterMap_append ..
    cases frac with
    | none =>
      refine ⟨c, b2, hc, body b2 hb2, ?_, ?_, ?_⟩
      · rw [hds, hdi, Option.getD_none]; simp only [digs, List.filterMap_nil, List.append_nil]; exact (positional_zeros _ _ hz).symm
      · rw [hds, hdi]; simp only [List.length_append]; omega
      · have hfe : findExponent (c :: b2 ++ t) 0 (-1) = some (c :: b2, t, (digs (c :: b2)).length, -1) := by
          rw [findExponent_body _ _ _ _ hcd, findExponent_tail _ _ _ ht]; simp
        rw [parseMagnitude_digits sign _ (c :: b2) t (-1) (-1) (0 - 0) (by simp) (by rw [hs]; rfl) hfe (hpos c b2 hc)]
        congr 1
    | some f =>
      have hff := hf f rfl
      have hw : digs (c :: (b2 ++ 46 :: f)) = digs (c :: b2) ++ digs f := by
        rw [← List.cons_append]
        show List.filterMap _ _ = _
        rw [List.filterMap_append]
        show digs _ ++ digs (46 :: f) = _
        rw [digs_other 46 f (by omega)]
      refine ⟨c, b2 ++ 46 :: f, hc, ?_, ?_, ?_, ?_⟩
      · intro x hx
        rcases List.mem_append.1 hx with h | h
        · exact body b2 hb2 x h
        · rcases List.mem_cons.1 h with rfl | h
          · exact Or.inr (Or.inl rfl)
          · exact body f hff x h
      · rw [hw, hds, hdi, Option.getD_some, List.append_assoc, positional_zeros _ _ hz]
      · rw [hw, hds, hdi]; simp only [List.length_append, Option.getD_some]; omega
      · have hfe : findExponent ((c :: (b2 ++ 46 :: f)) ++ t) 0 (-1) =
            some (c :: (b2 ++ 46 :: f), t, (digs (c :: (b2 ++ 46 :: f))).length, ((digs (c :: b2)).length : Int)) := by
          rw [show (c :: (b2 ++ 46 :: f)) ++ t = (c :: b2) ++ (46 :: (f ++ t)) by simp]
          rw [findExponent_body _ _ _ _ hcd, findExponent, if_neg (by omega), if_neg (by omega), if_neg (by omega), if_pos rfl,
            if_neg (by omega), findExponent_body _ _ _ _ hff, findExponent_tail _ _ _ ht, hw]
          simp
        have hs2 : skipZeros (int ++ (ft ++ t)) (-1) 0 = ((c :: (b2 ++ 46 :: f)) ++ t, -1, 0) := by
          rw [hs]; simp [ft, fracOf]
        rw [parseMagnitude_digits sign _ (c :: (b2 ++ 46 :: f)) t (-1) _ 0 (by simp) hs2 hfe (hpos _ _ hc)]
        congr 1
        rw [if_pos (by omega), hw, Option.getD_some]; simp only [List.length_append]; omega

theorem exponentOf_text (l : FloatLit) (hl : l.WF) :
    exponentOf l.expText = if l.written = -2 ^ 63 then .ub else if -324 ≤ l.written ∧ l.written ≤ 308 then .ok l.written else .err := by
  unfold FloatLit.expText FloatLit.written
  cases he : l.exp with
  | none => rfl
  | some ue =>
    obtain ⟨u, e⟩ := ue
    obtain ⟨hwf, hr⟩ := hl.exp u e he
    have hp := parseInt_text e hwf
    have hne : e.text ≠ [] := by
      unfold Literal.text
      intro h
      exact hwf.1 (List.append_eq_nil_iff.1 h).2
    simp only [exponentOf, if_neg hne, hp]
    unfold expected Literal.meaning
    rw [hr]
    simp only
    generalize hv : (if e.negative = true then -(e.magnitude : Int) else (e.magnitude : Int)) = v
    by_cases hin : -2 ^ 63 ≤ v ∧ v < 2 ^ 63
    · rw [if_pos hin]
      simp only
      by_cases hm : v = -2 ^ 63
      · have hneg : e.negative = true := by
          by_contra h
          rw [if_neg h] at hv; omega
        rw [if_pos ⟨hneg, hm⟩, if_pos hm]
      · rw [if_neg (fun h => hm h.2), if_neg hm]
        simp only
        by_cases h : v > 308 ∨ v < -324
        · rw [if_pos h, if_neg (by omega)]
        · rw [if_neg h, if_pos (by omega)]
    · rw [if_neg hin, if_neg (by omega), if_neg (by omega)]

theorem expText_tail (l : FloatLit) : Tail l.expText := by
  unfold FloatLit.expText
  cases l.exp with
  | none => exact Or.inl rfl
  | some ue => refine Or.inr ⟨_, _, rfl, ?_⟩; cases ue.1 <;> simp

theorem parseDouble_text (l : FloatLit) (hl : l.WF) :
    parseDouble l.text = parseMagnitude l.negative (l.int ++ (fracOf l.frac ++ l.expText)) := by
  rw [← fracText_eq]
  obtain ⟨hne, hd⟩ := hl.int
  have hne2 : l.int ++ (l.fracText ++ l.expText) ≠ [] := by
    intro h; exact hne (List.append_eq_nil_iff.1 h).1
  unfold FloatLit.text FloatLit.negative
  rcases l.sign with _ | _ | _
  · cases hi : l.int with
    | nil => exact absurd hi hne
    | cons c r =>
      have hc := hd c (by rw [hi]; exact List.mem_cons_self)
      simp only [List.nil_append, List.cons_append, parseDouble]
      rw [if_neg (show ¬ (c = 45 ∨ c = 43) by omega), if_neg (by simp), decide_eq_false (by omega)]
      rfl
  · simp only [List.cons_append, List.nil_append, parseDouble]
    simp only [or_true, if_true, if_neg hne2]
    rfl
  · simp only [List.cons_append, List.nil_append, parseDouble]
    simp only [true_or, if_true, if_neg hne2]
    rfl

/-- An exponent which `kos_parse_double` does not accept. -/
theorem parseDouble_exponent (l : FloatLit) (hl : l.WF) (h : ¬ (-324 ≤ l.written ∧ l.written ≤ 308)) :
    parseDouble l.text = if l.written = -2 ^ 63 then .ub else .err := by
  rw [parseDouble_text l hl]
  have he := exponentOf_text l hl
  rw [if_neg h] at he
  have hz : ∀ sign, zeroDouble sign l.expText = if l.written = -2 ^ 63 then .ub else .err := by
    intro sign; unfold zeroDouble; rw [he]
    by_cases hm : l.written = -2 ^ 63
    · simp only [if_pos hm]
    · simp only [if_neg hm]
  have hd : ∀ sign w x, digitsDouble sign w l.expText x = if l.written = -2 ^ 63 then .ub else .err := by
    intro sign w x; unfold digitsDouble; rw [he]
    by_cases hm : l.written = -2 ^ 63
    · simp only [if_pos hm]
    · simp only [if_neg hm]
  rcases parseMagnitude_spec l.negative l.int l.frac l.expText hl.int.2 hl.frac (expText_tail l) with ⟨_, h2⟩ | ⟨c, w, _, _, _, _, h2⟩
  · exact h2.trans (hz _)
  · exact h2.trans (hd _ _ _)

/-- The number is zero. -/
theorem parseDouble_zero (l : FloatLit) (hl : l.WF) (h : -324 ≤ l.written ∧ l.written ≤ 308) (h0 : l.number = 0) :
    parseDouble l.text = assemble l.negative 0 0 := by
  rw [parseDouble_text l hl]
  have he := exponentOf_text l hl
  rw [if_neg (by omega), if_pos h] at he
  rcases parseMagnitude_spec l.negative l.int l.frac l.expText hl.int.2 hl.frac (expText_tail l) with ⟨_, h2⟩ | ⟨c, w, hc, _, h3, _, h2⟩
  · refine h2.trans ?_
    unfold zeroDouble; rw [he]
  · exfalso
    have : positional 10 (digs (c :: w)) = 0 := h3.trans h0
    rw [digs_digit c w (by omega), positional] at this
    have : 0 < (c - 48) * 10 ^ (digs w).length := Nat.mul_pos (by omega) (Nat.pow_pos (by omega))
    omega

/-- The digits which are kept: `A * 10^j` is the number up to one part in 2^55. -/
theorem parseDouble_digits (l : FloatLit) (hl : l.WF) (h : -324 ≤ l.written ∧ l.written ≤ 308) (h0 : l.number ≠ 0) :
    ∃ A e j : Nat, parseDouble l.text = finishDouble l.negative (A * 2 ^ (63 - e)) e (l.scale + j) ∧
      e ≤ 61 ∧ 2 ^ e ≤ A ∧ A < 2 ^ (e + 1) ∧
      l.number * 2 ^ 55 ≤ A * 10 ^ j * (2 ^ 55 + 1) ∧ A * 10 ^ j * (2 ^ 55 - 1) ≤ l.number * 2 ^ 55 := by
  rw [parseDouble_text l hl]
  have he := exponentOf_text l hl
  rw [if_neg (by omega), if_pos h] at he
  rcases parseMagnitude_spec l.negative l.int l.frac l.expText hl.int.2 hl.frac (expText_tail l) with ⟨h1, _⟩ | ⟨c, w, hc, hw, h3, _, h2⟩
  · exact absurd h1 h0
  · have hnum : positional 10 (digs (c :: w)) = l.number := h3
    have h2' : parseMagnitude l.negative (l.int ++ (fracOf l.frac ++ l.expText)) =
      digitsDouble l.negative (c :: w) l.expText (-((digs (l.frac.getD [])).length : Int)) := h2
    obtain ⟨A, e, j, k1, k2, k3, k4, _, k5, k6⟩ := digitLoop_start (digs (c :: w)).length c w
      (-((digs (l.frac.getD [])).length : Int) + l.written) hc hw rfl
    rw [hnum] at k5 k6
    refine ⟨A, e, j, ?_, k2, k3, k4, k5, k6⟩
    rw [h2']
    unfold digitsDouble
    rw [he]
    simp only [k1]
    congr 1
    unfold FloatLit.scale
    show _ = l.written - ((digs (l.frac.getD [])).length : Int) + j
    omega

end Verif.Misc
