import Verif.Props.C27

/-!
C28: `scan` and `rscan` return the nearest character that belongs, or does not belong, to a set.
-/
namespace Verif.Props

open Verif.Str

/-- Where a scan starts: `scan` at 0, `rscan` at the end. -/
def scanFrom (cs : List Nat) (rev : Bool) (pos : Option Int) : Int := position cs.length (if rev then cs.length else 0) pos

theorem scan_nearest (text pat : S) (cs ds : List Nat) (ht : Rep text cs) (hp : Rep pat ds) (hd : ds ≠ []) (rev incl : Bool)
    (pos : Option Int) :
    ∃ r, scanDir text pat rev incl pos = some r ∧ Nearest (Stops cs ds pat.width incl) rev (scanFrom cs rev pos) r := by
  unfold scanDir scanFrom
  simp only []
  rw [ht.len]
  have hdl : ds.length ≠ 0 := fun c => hd (List.length_eq_zero_iff.mp c)
  have hi : ∃ p, (if rev = true ∧ indexArg (if rev = true then -1 else 0) (cs.length : Int) rev pos = cs.length then
        indexArg (if rev = true then -1 else 0) (cs.length : Int) rev pos - 1 else indexArg (if rev = true then -1 else 0) (cs.length : Int) rev pos) = p ∧
      ∀ q, Stops cs ds pat.width incl q → (Ahead rev p q ↔ Ahead rev (position cs.length (if rev then cs.length else 0) pos) q) := by
    refine ⟨_, rfl, ?_⟩
    rintro q ⟨x, q1, q2, _⟩
    obtain ⟨q3, _⟩ := List.getElem?_eq_some_iff.mp q2
    cases rev
    · simp only [Bool.false_eq_true, if_false, false_and, Ahead]
      cases pos with
      | none => simp only [indexArg, position, Bool.false_eq_true, if_false]
      | some i => simp only [indexArg, position]; split <;> split <;> (try split) <;> omega
    · simp only [if_true, true_and, Ahead]
      cases pos with
      | none => simp only [indexArg, position, if_true]; omega
      | some i => simp only [indexArg, position]; split <;> split <;> split <;> (try split) <;> omega
  obtain ⟨p, e, ha⟩ := hi
  rw [e]
  by_cases hb : 0 ≤ p ∧ p < cs.length
  · obtain ⟨r, e1, e2⟩ := scan_spec text pat cs ds ht hp hd rev incl p hb.1 hb.2
    exact ⟨r, e1, nearest_congr (fun _ => Iff.rfl) ha e2⟩
  · refine ⟨-1, ?_, Or.inr ⟨rfl, ?_⟩⟩
    · unfold scan
      rw [hp.len, ht.len, if_neg hdl, if_pos (by omega)]
    · intro q hq hs
      have := (ha q hs).mpr hq
      obtain ⟨x, q1, q2, _⟩ := hs
      obtain ⟨q3, _⟩ := List.getElem?_eq_some_iff.mp q2
      -- `p` is -1 in a backward scan, and the length of the string in a forward scan
      cases rev
      · simp only [Bool.false_eq_true, if_false, Ahead] at this
        have hp0 : 0 ≤ p := by
          rw [← e]
          simp only [Bool.false_eq_true, if_false, false_and]
          cases pos with
          | none => simp [indexArg]
          | some i => simp only [indexArg]; split <;> split <;> (try split) <;> omega
        omega
      · simp only [if_true, Ahead] at this
        have hp0 : p < cs.length := by
          rw [← e]
          simp only [if_true, true_and]
          cases pos with
          | none => simp only [indexArg, if_true]; omega
          | some i => simp only [indexArg]; split <;> split <;> split <;> (try split) <;> omega
        omega

/-- Looking for characters of the set: `scan` and `rscan` return the nearest one. -/
theorem C28_inclusive (text pat : S) (cs ds : List Nat) (ht : Rep text cs) (hp : Rep pat ds) (hd : ds ≠ []) (rev : Bool) (pos : Option Int) :
    ∃ r, scanDir text pat rev true pos = some r ∧ Nearest (Qualifies cs ds true) rev (scanFrom cs rev pos) r := by
  obtain ⟨r, e1, e2⟩ := scan_nearest text pat cs ds ht hp hd rev true pos
  refine ⟨r, e1, nearest_congr ?_ (fun _ _ => Iff.rfl) e2⟩
  intro q
  constructor
  · rintro ⟨c, h1, h2, _, h3⟩; exact ⟨c, h1, h2, h3⟩
  · rintro ⟨c, h1, h2, h3⟩; exact ⟨c, h1, h2, hp.fit c (h3.mpr rfl), h3⟩

/-- The full claim for characters outside of the set. -/
def C28_exclusive_full : Prop :=
  ∀ (text pat : S) (cs ds : List Nat), Rep text cs → Rep pat ds → ds ≠ [] → ∀ (rev : Bool) (pos : Option Int),
    ∃ r, scanDir text pat rev false pos = some r ∧ Nearest (Qualifies cs ds false) rev (scanFrom cs rev pos) r

/-- It holds when every character of the text fits in the element size of the set. -/
theorem C28_exclusive_partial (text pat : S) (cs ds : List Nat) (ht : Rep text cs) (hp : Rep pat ds) (hd : ds ≠ [])
    (hw : ∀ c ∈ cs, c < 256 ^ pat.width.bytes) (rev : Bool) (pos : Option Int) :
    ∃ r, scanDir text pat rev false pos = some r ∧ Nearest (Qualifies cs ds false) rev (scanFrom cs rev pos) r := by
  obtain ⟨r, e1, e2⟩ := scan_nearest text pat cs ds ht hp hd rev false pos
  refine ⟨r, e1, nearest_congr ?_ (fun _ _ => Iff.rfl) e2⟩
  intro q
  constructor
  · rintro ⟨c, h1, h2, _, h3⟩; exact ⟨c, h1, h2, h3⟩
  · rintro ⟨c, h1, h2, h3⟩; exact ⟨c, h1, h2, hw c (List.mem_of_getElem? h2), h3⟩

/-- The code violates it: characters wider than those of the set are skipped as if they belonged to it
(core/kos_string.c:1433).  `"\u{100}".scan("a", 0, false)` returns -1. -/
theorem C28_exclusive_violated : ¬ C28_exclusive_full := by
  intro h
  have r1 : Rep ⟨.w16, false, .inObj, 1, 0, 0, [0, 1]⟩ [256] := ⟨rfl, by simp, ⟨[], rfl⟩, by decide, by simp, rfl, Or.inl rfl⟩
  have r2 : Rep ⟨.w8, true, .inObj, 1, 0, 0, [97]⟩ [97] := ⟨rfl, by simp, ⟨[], rfl⟩, by decide, by simp, rfl, Or.inl rfl⟩
  obtain ⟨r, e1, e2⟩ := h _ _ _ _ r1 r2 (by simp) false none
  have : scanDir ⟨.w16, false, .inObj, 1, 0, 0, [0, 1]⟩ ⟨.w8, true, .inObj, 1, 0, 0, [97]⟩ false false none = some (-1) := by decide +kernel
  rw [this, Option.some.injEq] at e1
  subst e1
  rcases e2 with ⟨⟨_, c, _⟩, _⟩ | ⟨_, c⟩
  · omega
  · exact c 0 (by simp [Ahead, scanFrom, position]) ⟨256, by omega, by simp, by simp⟩

/-- "language": the documented examples and a few more. -/
example :
    let t : S := ⟨.w8, true, .inObj, 8, 0, 0, [108, 97, 110, 103, 117, 97, 103, 101]⟩
    let uga : S := ⟨.w8, true, .inObj, 3, 0, 0, [117, 103, 97]⟩
    scanDir t uga false false (some (-5)) = some 7 ∧ scanDir t uga true false (some (-2)) = some 2 ∧
    scanDir t ⟨.w8, true, .inObj, 1, 0, 0, [103]⟩ true true none = some 6 ∧
    scanDir t ⟨.w32, false, .inObj, 2, 0, 0, [0, 0, 1, 0, 103, 0, 0, 0]⟩ false true none = some 3 ∧
    scanDir t uga true true (some 0) = some (-1) ∧ scanDir t ⟨.w8, true, .inObj, 0, 0, 0, []⟩ false true (some 3) = some 3 := by
  decide +kernel

end Verif.Props
