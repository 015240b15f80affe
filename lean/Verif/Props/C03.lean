import Verif.Base.Hex
import Verif.Props.C01
/-! C03: `integer(hex(v, n)) == v`. -/
namespace Verif.Base
open Verif.Misc Verif.Misc.Spec

/-- Hexadecimal digits of a number, most significant first; one digit for zero. -/
def digitsOf (u : Nat) : List Nat :=
  if u < 16 then [u] else digitsOf (u / 16) ++ [u % 16]
decreasing_by omega

theorem digitsOf_lt (u : Nat) : ∀ d ∈ digitsOf u, d < 16 := by
  fun_induction digitsOf u with
  | case1 u h => simp; exact h
  | case2 u h ih =>
    intro d hd
    rcases List.mem_append.mp hd with h | h
    · exact ih d h
    · simp at h; omega

theorem positional_append (b : Nat) (xs : List Nat) (d : Nat) :
    positional b (xs ++ [d]) = positional b xs * b + d := by
  induction xs with
  | nil => simp [positional]
  | cons x xs ih =>
    simp only [List.cons_append, positional, ih, List.length_append, List.length_singleton]
    rw [Nat.pow_succ, Nat.add_mul, Nat.mul_assoc, Nat.add_assoc]

theorem positional_digitsOf (u : Nat) : positional 16 (digitsOf u) = u := by
  fun_induction digitsOf u with
  | case1 u h => simp [positional]
  | case2 u h ih => rw [positional_append, ih]; omega

theorem digitsOf_length_pos (u : Nat) : 0 < (digitsOf u).length := by
  rw [digitsOf]; split <;> simp

theorem digitsOf_length_le (u : Nat) : ∀ k, u < 16 ^ (k + 1) → (digitsOf u).length ≤ k + 1 := by
  fun_induction digitsOf u with
  | case1 u h => intro k _; simp
  | case2 u h ih =>
    intro k hk
    cases k with
    | zero => simp at hk; omega
    | succ k =>
      have := ih k (by rw [Nat.pow_succ] at hk; omega)
      simp; omega

theorem digitsOf_head (u : Nat) : 1 < (digitsOf u).length → (digitsOf u).head? ≠ some 0 := by
  fun_induction digitsOf u with
  | case1 u h => simp
  | case2 u h ih =>
    intro _
    have hp := digitsOf_length_pos (u / 16)
    rw [List.head?_append, Option.or_of_isSome (by rw [List.isSome_head?]; simpa [List.length_pos_iff] using hp)]
    by_cases h1 : 1 < (digitsOf (u / 16)).length
    · exact ih h1
    · rw [digitsOf]
      rw [digitsOf] at h1 hp
      split
      · simp; omega
      · rename_i hh
        rw [if_neg hh] at h1
        have := digitsOf_length_pos (u / 16 / 16)
        simp at h1; simp [h1] at this

/-- Character of a digit. -/
def chr (d : Nat) : Nat := if d < 10 then 48 + d else 87 + d

theorem hexDigits_get (d : Nat) (h : d < 16) : hexDigits[d]? = some (chr d) := by
  have : ∀ d : Fin 16, hexDigits[d.val]? = some (chr d.val) := by decide
  exact this ⟨d, h⟩

theorem digitVal_chr (d : Nat) (h : d < 16) : digitVal .hex (chr d) = some d := by
  have : ∀ d : Fin 16, digitVal .hex (chr d.val) = some d.val := by decide
  exact this ⟨d, h⟩

theorem bufSet_nat (buf : List Nat) (n : Nat) (h : n < buf.length) (b : Nat) :
    ∃ buf', bufSet buf n b = some buf' ∧ buf'.length = buf.length ∧
      buf'.drop n = b :: buf.drop (n + 1) := by
  refine ⟨buf.set n b, ?_, by simp, ?_⟩
  · simp only [bufSet]
    rw [if_neg (c := (n : Int) < 0) (by omega), if_pos (by omega)]
    simp
  · have h' : n < (buf.set n b).length := by simpa using h
    rw [List.drop_eq_getElem_cons h', List.drop_set_of_lt (by omega)]
    simp

theorem shr4 (v : BitVec 64) : (v >>> 4).toNat = v.toNat / 16 := by
  simp [Nat.shiftRight_eq_div_pow]

theorem and15 (v : BitVec 64) : (v &&& 15#64).toNat = v.toNat % 16 := by
  rw [BitVec.toNat_and]
  exact Nat.and_two_pow_sub_one_eq_mod v.toNat 4

/-- The digit loop writes the digits of the value before whatever was already written. -/
theorem hexLoop_spec (v : BitVec 64) : ∀ (codes : List Nat) (n : Nat), n < codes.length →
    (digitsOf v.toNat).length ≤ n + 1 →
    ∃ codes', hexLoop codes n v = some (codes', (n : Int) - (digitsOf v.toNat).length) ∧
      codes'.length = codes.length ∧
      codes'.drop (n + 1 - (digitsOf v.toNat).length) =
        (digitsOf v.toNat).map chr ++ codes.drop (n + 1) := by
  generalize hu : v.toNat = u
  induction u using Nat.strongRecOn generalizing v with
  | _ u ih =>
    intro codes n hn hlen
    rw [hexLoop, and15, hu, hexDigits_get _ (by omega)]
    simp only
    obtain ⟨c1, e1, l1, d1⟩ := bufSet_nat codes n hn (chr (u % 16))
    rw [e1]
    simp only
    by_cases hs : u < 16
    · have hz : v >>> 4 = 0 := by
        apply BitVec.eq_of_toNat_eq; rw [shr4, hu]; simp; omega
      rw [if_pos hz]
      refine ⟨c1, ?_, l1, ?_⟩
      · rw [digitsOf, if_pos hs]; simp
      · rw [digitsOf, if_pos hs]
        simp only [List.length_singleton, Nat.add_sub_cancel, d1, List.map_cons, List.map_nil,
          List.singleton_append]
        rw [Nat.mod_eq_of_lt hs]
    · have hz : ¬ v >>> 4 = 0 := by
        intro h
        have := congrArg BitVec.toNat h
        rw [shr4, hu] at this; simp at this; omega
      rw [if_neg hz]
      have hd : digitsOf u = digitsOf (u / 16) ++ [u % 16] := by
        conv => lhs; rw [digitsOf, if_neg hs]
      have hp := digitsOf_length_pos (u / 16)
      rw [hd, List.length_append, List.length_singleton] at hlen
      obtain ⟨m, rfl⟩ : ∃ m, n = m + 1 := ⟨n - 1, by omega⟩
      have := ih (u / 16) (by omega) (v >>> 4) (by rw [shr4, hu]) c1 m (by omega) (by omega)
      obtain ⟨c2, e2, l2, d2⟩ := this
      refine ⟨c2, ?_, by omega, ?_⟩
      · have : ((m + 1 : Nat) : Int) - 1 = m := by omega
        rw [this, e2, hd]
        simp; omega
      · rw [hd]
        simp only [List.length_append, List.length_singleton, List.map_append, List.map_cons,
          List.map_nil, List.append_assoc, List.singleton_append]
        rw [show m + 1 + 1 - ((digitsOf (u / 16)).length + 1) = m + 1 - (digitsOf (u / 16)).length by omega]
        rw [d2, d1]

/-- The padding loop puts zeros in front until the minimum index is reached. -/
theorem padLoop_spec (k : Nat) : ∀ (codes : List Nat) (n t : Nat), n < codes.length → n = t + k →
    ∃ codes', padLoop codes n t = some (codes', (t : Int)) ∧ codes'.length = codes.length ∧
      codes'.drop (t + 1) = List.replicate k 48 ++ codes.drop (n + 1) := by
  induction k with
  | zero =>
    intro codes n t hn hk
    refine ⟨codes, ?_, rfl, ?_⟩
    · rw [padLoop, if_neg (by omega), show n = t by omega]
    · simp [hk]
  | succ k ih =>
    intro codes n t hn hk
    obtain ⟨m, rfl⟩ : ∃ m, n = m + 1 := ⟨n - 1, by omega⟩
    obtain ⟨c1, e1, l1, d1⟩ := bufSet_nat codes (m + 1) hn 0x30
    obtain ⟨c2, e2, l2, d2⟩ := ih c1 m t (by omega) (by omega)
    refine ⟨c2, ?_, by omega, ?_⟩
    · rw [padLoop, if_pos (by omega), e1]
      simp only
      rw [show ((m + 1 : Nat) : Int) - 1 = m by omega, e2]
    · rw [d2, d1, List.replicate_succ']
      simp

theorem filterMap_chr (ds : List Nat) (h : ∀ d ∈ ds, d < 16) :
    (ds.map chr).filterMap (digitVal .hex) = ds := by
  induction ds with
  | nil => rfl
  | cons d ds ih =>
    simp only [List.map_cons]
    rw [List.filterMap_cons_some (digitVal_chr d (h d (by simp))), ih (fun x hx => h x (by simp [hx]))]

theorem positional_zeros (k : Nat) (ds : List Nat) :
    positional 16 (List.replicate k 0 ++ ds) = positional 16 ds := by
  induction k with
  | zero => rfl
  | succ k ih => simp [List.replicate_succ, positional, ih]

/-- The exact text: `0x`, zero padding up to the requested width, then the digits. -/
theorem hex_eq (v : BitVec 64) (n : Nat) (hn : n ≤ 16) :
    hex v n = some (48 :: 120 ::
      (List.replicate (n - (digitsOf v.toNat).length) 0 ++ digitsOf v.toNat).map chr) := by
  have hlen : (digitsOf v.toNat).length ≤ 16 := digitsOf_length_le _ 15 (by have := v.isLt; omega)
  have hpos := digitsOf_length_pos v.toNat
  unfold hex
  rw [if_neg (by omega)]
  obtain ⟨c1, e1, l1, d1⟩ := hexLoop_spec v (List.replicate 18 0) 17 (by simp) (by omega)
  rw [List.length_replicate] at l1
  have e1' : hexLoop (List.replicate 18 0) 17 v = some (c1, ((17 - (digitsOf v.toNat).length : Nat) : Int)) := by
    have : (((17 - (digitsOf v.toNat).length : Nat)) : Int) = ((17 : Nat) : Int) - (digitsOf v.toNat).length := by omega
    rw [this]; exact e1
  rw [e1']
  simp only
  rw [show 17 + 1 - (digitsOf v.toNat).length = 17 - (digitsOf v.toNat).length + 1 by omega] at d1
  generalize hL : (digitsOf v.toNat).length = L at *
  obtain ⟨c2, t, e2, l2, d2, ht1, ht⟩ : ∃ (c2 : List Nat) (t : Nat), padLoop c1 ((17 - L : Nat) : Int) (17 - (n : Int)) = some (c2, (t : Int)) ∧
      c2.length = 18 ∧ c2.drop (t + 1) = List.replicate (n - L) 48 ++ (digitsOf v.toNat).map chr ∧
      1 ≤ t ∧ t < 18 := by
    by_cases hnl : L ≤ n
    · obtain ⟨c2, e2, l2, d2⟩ := padLoop_spec (n - L) c1 (17 - L) (17 - n) (by omega) (by omega)
      refine ⟨c2, 17 - n, ?_, by omega, ?_, by omega, by omega⟩
      · rw [← e2]; congr 1; omega
      · rw [d2, d1]; simp
    · refine ⟨c1, 17 - L, ?_, l1, ?_, by omega, by omega⟩
      · rw [padLoop, if_neg (by omega)]
      · rw [d1]; simp [show n - L = 0 by omega]
  rw [e2]
  simp only
  obtain ⟨c3, e3, l3, d3⟩ := bufSet_nat c2 t (by omega) 0x78
  rw [e3]
  simp only
  obtain ⟨m, rfl⟩ : ∃ m, t = m + 1 := ⟨t - 1, by omega⟩
  obtain ⟨c4, e4, l4, d4⟩ := bufSet_nat c3 m (by omega) 0x30
  rw [show ((m + 1 : Nat) : Int) - 1 = m by omega, e4]
  simp only [Int.toNat_natCast, d4, d3, d2, List.map_append, List.map_replicate]
  rfl

/-- **C03.** For every integer and every permitted width, `hex` succeeds, yields `0x` followed by
lower-case hexadecimal digits, at least the requested number of them and no superfluous ones, and
parsing the text gives the integer back. -/
theorem C03_hex_roundtrip (v : BitVec 64) (n : Nat) (hn : n ≤ 16) :
    ∃ ds : List Nat, hex v n = some ([48, 120] ++ ds) ∧
      (∀ c ∈ ds, (48 ≤ c ∧ c ≤ 57) ∨ (97 ≤ c ∧ c ≤ 102)) ∧
      n ≤ ds.length ∧ 1 ≤ ds.length ∧ ds.length ≤ 16 ∧
      (max n 1 < ds.length → ds.head? ≠ some 48) ∧
      parseInt ([48, 120] ++ ds) = .ok v.toInt := by
  have hlen : (digitsOf v.toNat).length ≤ 16 := digitsOf_length_le _ 15 (by have := v.isLt; omega)
  have hpos := digitsOf_length_pos v.toNat
  refine ⟨_, hex_eq v n hn, ?_, ?_, ?_, ?_, ?_, ?_⟩
  · intro c hc
    obtain ⟨d, hd, rfl⟩ := List.mem_map.mp hc
    have : d < 16 := by
      rcases List.mem_append.mp hd with h | h
      · rw [(List.mem_replicate.mp h).2]; omega
      · exact digitsOf_lt _ _ h
    unfold chr; split <;> omega
  · simp; omega
  · simp; omega
  · simp; omega
  · intro h
    simp at h
    have h1 : n - (digitsOf v.toNat).length = 0 := by omega
    have h2 := digitsOf_head v.toNat (by omega)
    rw [h1]
    simp only [List.replicate_zero, List.nil_append, List.head?_map]
    intro hh
    cases hd : (digitsOf v.toNat).head? with
    | none => rw [hd] at hh; simp at hh
    | some d =>
      rw [hd] at hh h2
      have hmem := digitsOf_lt _ d (List.mem_of_head? hd)
      simp at hh h2
      unfold chr at hh
      split at hh <;> omega
  · have hds : ∀ d ∈ List.replicate (n - (digitsOf v.toNat).length) 0 ++ digitsOf v.toNat, d < 16 := by
      intro d hd
      rcases List.mem_append.mp hd with h | h
      · rw [(List.mem_replicate.mp h).2]; omega
      · exact digitsOf_lt _ _ h
    let l : Literal := ⟨none, .hex, false, (List.replicate (n - (digitsOf v.toNat).length) 0 ++ digitsOf v.toNat).map chr⟩
    have hm : l.magnitude = v.toNat := by
      show positional 16 (((List.replicate (n - (digitsOf v.toNat).length) 0 ++ digitsOf v.toNat).map chr).filterMap (digitVal .hex)) = _
      rw [filterMap_chr _ hds, positional_zeros, positional_digitsOf]
    have hw : l.WF := by
      constructor
      · intro e
        have : 0 < l.body.length := by simp only [l, List.length_map, List.length_append]; omega
        rw [e] at this; exact absurd this (by simp)
      · intro c hc
        obtain ⟨d, hd, rfl⟩ := List.mem_map.mp hc
        right; rw [digitVal_chr d (hds d hd)]; rfl
    have hmean : l.meaning = some v.toInt := by
      have hv := v.isLt
      rw [meaning_hex_pos l _ rfl rfl hm hv]
      apply congrArg some
      rw [BitVec.toInt_eq_toNat_cond]
      split
      · rw [signed64_small _ (by omega)]
      · rw [signed64_hi _ (by omega)]; rfl
    exact C01_literal_value.2.2 l hw _ hmean (by simp [l, Literal.negative])

/-- Widths outside 0..16 fail the assertion instead of producing a wrong text. -/
theorem C03_width_rejected (v : BitVec 64) (n : Int) (hn : n < 0 ∨ 16 < n) : hex v n = none := by
  unfold hex; rw [if_pos (by omega)]

example : hex (-1) 4 = some ("0xffffffffffffffff".toList.map Char.toNat) ∧
    hex 123 4 = some ("0x007b".toList.map Char.toNat) := by
  constructor <;> (rw [show (4:Int) = (4:Nat) from rfl, hex_eq _ 4 (by omega)]; simp [digitsOf, chr])

end Verif.Base
