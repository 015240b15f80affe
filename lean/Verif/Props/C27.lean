import Verif.Props.C26
import Verif.Str.Find

/-!
C27: `find` and `rfind` return the nearest occurrence of the pattern.
-/
namespace Verif.Props

open Verif.Str

theorem nearest_congr {P Q : Int → Prop} {rev : Bool} {p p' r : Int} (hPQ : ∀ q, P q ↔ Q q)
    (ha : ∀ q, P q → (Ahead rev p q ↔ Ahead rev p' q)) (h : Nearest P rev p r) : Nearest Q rev p' r := by
  rcases h with ⟨h1, h2, h3⟩ | ⟨h1, h2⟩
  · exact Or.inl ⟨(hPQ r).mp h1, (ha r h1).mp h2, fun q hq hpq => h3 q ((hPQ q).mpr hq) ((ha q ((hPQ q).mpr hq)).mpr hpq)⟩
  · exact Or.inr ⟨h1, fun q hpq hq => h2 q ((ha q ((hPQ q).mpr hq)).mpr hpq) ((hPQ q).mpr hq)⟩

theorem at_occurs (cs ds : List Nat) (hd : ds ≠ []) (p : Int) : At cs ds p ↔ Occurs cs ds p := by
  constructor
  · rintro ⟨h1, h2, h3⟩
    refine ⟨h1, ?_⟩
    rw [List.drop_take, Nat.add_sub_cancel_left] at h3
    rw [List.prefix_iff_eq_take]
    exact h3.symm
  · rintro ⟨h1, h2⟩
    have hl := h2.length_le
    rw [List.length_drop] at hl
    have hdl : ds.length ≠ 0 := fun c => hd (List.length_eq_zero_iff.mp c)
    refine ⟨h1, by omega, ?_⟩
    rw [List.drop_take, Nat.add_sub_cancel_left]
    exact (List.prefix_iff_eq_take.mp h2).symm

theorem find_beyond (coll : Nat → Nat → Int) (text pat : S) (cs ds : List Nat) (ht : Rep text cs) (hp : Rep pat ds) (hd : ds ≠ [])
    (rev : Bool) (pos : Int) (h : pos < 0 ∨ pos + ds.length > cs.length) : find coll text pat rev pos = some (-1) := by
  unfold find
  have hdl : ds.length ≠ 0 := fun c => hd (List.length_eq_zero_iff.mp c)
  rw [hp.len, ht.len, if_neg hdl, if_pos (by omega)]

/-- `text.find(pat, pos)` is the first occurrence of the pattern at or after the given position. -/
theorem C27_find (coll : Nat → Nat → Int) (hc : Separates coll) (text pat : S) (cs ds : List Nat) (ht : Rep text cs) (hp : Rep pat ds)
    (hd : ds ≠ []) (pos : Option Int) :
    ∃ r, findDir coll text pat false pos = some r ∧ Nearest (Occurs cs ds) false (position cs.length 0 pos) r := by
  unfold findDir
  simp only [Bool.false_eq_true, if_false]
  rw [ht.len]
  have hi : ∃ p, indexArg 0 (cs.length : Int) false pos = p ∧ 0 ≤ p ∧
      (p = position cs.length 0 pos ∨ (p = 0 ∧ position cs.length 0 pos < 0) ∨ (p = cs.length ∧ (cs.length : Int) < position cs.length 0 pos)) := by
    refine ⟨_, rfl, ?_⟩
    cases pos with
    | none => simp [indexArg, position]
    | some i =>
      simp only [indexArg, position]
      by_cases h : i < 0
      · rw [if_pos h]; split <;> rename_i h1
        · omega
        · split <;> omega
      · rw [if_neg h]; split <;> rename_i h1
        · omega
        · split <;> omega
  obtain ⟨p, e, h0, hp'⟩ := hi
  rw [e]
  have hdl : ds.length ≠ 0 := fun c => hd (List.length_eq_zero_iff.mp c)
  have ahead : ∀ q, At cs ds q → (Ahead false p q ↔ Ahead false (position cs.length 0 pos) q) := by
    rintro q ⟨q1, q2, _⟩
    simp only [Ahead, Bool.false_eq_true, if_false]
    omega
  by_cases hb : p + ds.length > cs.length
  · refine ⟨_, find_beyond coll text pat cs ds ht hp hd false p (Or.inr hb), Or.inr ⟨rfl, ?_⟩⟩
    intro q hq ho
    have ho := (at_occurs cs ds hd q).mpr ho
    have := (ahead q ho).mpr hq
    simp only [Ahead, Bool.false_eq_true, if_false] at this
    obtain ⟨q1, q2, _⟩ := ho
    omega
  · obtain ⟨r, e1, e2⟩ := find_spec coll hc text pat cs ds ht hp hd false p h0 (by omega)
    exact ⟨r, e1, nearest_congr (at_occurs cs ds hd) ahead e2⟩

/-- The full claim for `rfind`: the last occurrence at or before the given position. -/
def C27_rfind_full : Prop :=
  ∀ (coll : Nat → Nat → Int), Separates coll → ∀ (text pat : S) (cs ds : List Nat), Rep text cs → Rep pat ds → ds ≠ [] → ∀ pos : Option Int,
    ∃ r, findDir coll text pat true pos = some r ∧ Nearest (Occurs cs ds) true (position cs.length cs.length pos) r

/-- It holds when the position is absent or not negative. -/
theorem C27_rfind_partial (coll : Nat → Nat → Int) (hc : Separates coll) (text pat : S) (cs ds : List Nat) (ht : Rep text cs)
    (hp : Rep pat ds) (hd : ds ≠ []) (pos : Option Int) (hpos : ∀ i, pos = some i → 0 ≤ i) :
    ∃ r, findDir coll text pat true pos = some r ∧ Nearest (Occurs cs ds) true (position cs.length cs.length pos) r := by
  unfold findDir
  simp only [if_true]
  rw [ht.len, hp.len]
  have hdl : ds.length ≠ 0 := fun c => hd (List.length_eq_zero_iff.mp c)
  have hi : ∃ p, indexArg (-1) (if (cs.length : Int) - ds.length > 0 then (cs.length : Int) - ds.length else 0) true pos = p ∧ 0 ≤ p ∧
      (p + ds.length ≤ cs.length ∨ cs.length < ds.length) ∧
      (p = position cs.length cs.length pos ∨ (p + ds.length = cs.length ∧ p < position cs.length cs.length pos) ∨ cs.length < ds.length) := by
    refine ⟨_, rfl, ?_⟩
    cases pos with
    | none =>
      simp only [indexArg, position, if_true]
      split <;> omega
    | some i =>
      have := hpos i rfl
      simp only [indexArg, position]
      rw [if_neg (show ¬ i < 0 by omega), if_neg (show ¬ i < 0 by omega), if_neg (show ¬ i < -1 by omega)]
      split <;> split <;> omega
  obtain ⟨p, e, h0, h1, h2⟩ := hi
  rw [e]
  by_cases hb : cs.length < ds.length
  · refine ⟨_, find_beyond coll text pat cs ds ht hp hd true p (Or.inr (by omega)), Or.inr ⟨rfl, ?_⟩⟩
    intro q hq ho
    obtain ⟨q1, q2, _⟩ := (at_occurs cs ds hd q).mpr ho
    omega
  · obtain ⟨r, e1, e2⟩ := find_spec coll hc text pat cs ds ht hp hd true p h0 (by omega)
    refine ⟨r, e1, nearest_congr (at_occurs cs ds hd) ?_ e2⟩
    rintro q ⟨q1, q2, _⟩
    simp only [Ahead, if_true]
    omega

/-- The code violates it: a negative position counts from the last place where the pattern fits (modules/kos_mod_base.c:4196), so
`"language".rfind("e", -1)` does not see the last character. -/
theorem C27_rfind_violated : ¬ C27_rfind_full := by
  intro h
  have r1 : Rep ⟨.w8, true, .inObj, 8, 0, 0, [108, 97, 110, 103, 117, 97, 103, 101]⟩ [108, 97, 110, 103, 117, 97, 103, 101] :=
    ⟨rfl, by simp, ⟨[], rfl⟩, by decide, by simp, rfl, Or.inl rfl⟩
  have r2 : Rep ⟨.w8, true, .inObj, 1, 0, 0, [101]⟩ [101] := ⟨rfl, by simp, ⟨[], rfl⟩, by decide, by simp, rfl, Or.inl rfl⟩
  obtain ⟨r, e1, e2⟩ := h _ byCode_sub.separates _ _ _ _ r1 r2 (by simp) (some (-1))
  have : findDir (fun x y => (x : Int) - y) ⟨.w8, true, .inObj, 8, 0, 0, [108, 97, 110, 103, 117, 97, 103, 101]⟩
      ⟨.w8, true, .inObj, 1, 0, 0, [101]⟩ true (some (-1)) = some (-1) := by decide +kernel
  rw [this, Option.some.injEq] at e1
  subst e1
  rcases e2 with ⟨⟨c, _⟩, _⟩ | ⟨_, c⟩
  · omega
  · exact c 7 (by simp [Ahead, position]) ⟨by omega, by simp⟩

/-- An empty pattern is found at the given position, limited to the string; for `find` this is the same as an occurrence. -/
theorem C27_find_empty (coll : Nat → Nat → Int) (text pat : S) (cs : List Nat) (ht : Rep text cs) (hp : Rep pat []) (pos : Option Int) :
    findDir coll text pat false pos = some (max 0 (min (cs.length : Int) (position cs.length 0 pos))) := by
  unfold findDir find
  simp only [Bool.false_eq_true, if_false]
  rw [ht.len, hp.len, if_pos (show ([] : List Nat).length = 0 from rfl), Option.some.injEq]
  cases pos with
  | none => simp only [indexArg, position, Bool.false_eq_true, if_false]; omega
  | some i =>
    simp only [indexArg, position]
    split <;> split <;> (try split) <;> omega

/-- Every position inside the string is an occurrence of the empty pattern, so the nearest one is where the search starts. -/
theorem C27_find_empty_nearest (coll : Nat → Nat → Int) (text pat : S) (cs : List Nat) (ht : Rep text cs) (hp : Rep pat []) (pos : Option Int)
    (h : position cs.length 0 pos ≤ cs.length) :
    ∃ r, findDir coll text pat false pos = some r ∧ Nearest (Occurs cs []) false (position cs.length 0 pos) r := by
  refine ⟨_, C27_find_empty coll text pat cs ht hp pos, Or.inl ⟨⟨by omega, List.nil_prefix⟩, ?_, ?_⟩⟩
  · simp only [Ahead, Bool.false_eq_true, if_false]; omega
  · rintro q ⟨q1, _⟩
    simp only [Ahead, Bool.false_eq_true, if_false]
    omega

/-- "banana": forward from 2, from the end backwards, a pattern that is not there, and a 16-bit pattern. -/
example :
    let c : Nat → Nat → Int := fun x y => (x : Int) - y
    let t : S := ⟨.w8, true, .inObj, 6, 0, 0, [98, 97, 110, 97, 110, 97]⟩
    findDir c t ⟨.w8, true, .inObj, 3, 0, 0, [97, 110, 97]⟩ false (some 2) = some 3 ∧
    findDir c t ⟨.w16, false, .inObj, 3, 0, 0, [97, 0, 110, 0, 97, 0]⟩ true none = some 3 ∧
    findDir c t ⟨.w16, false, .inObj, 3, 0, 0, [97, 0, 110, 0, 97, 0]⟩ true (some 2) = some 1 ∧
    findDir c t ⟨.w8, true, .inObj, 1, 0, 0, [97]⟩ false (some (-2)) = some 5 ∧
    findDir c t ⟨.w8, true, .inObj, 2, 0, 0, [97, 98]⟩ false none = some (-1) := by
  decide +kernel

end Verif.Props
