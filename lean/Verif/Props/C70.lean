import Verif.Re.ParseAll
import Verif.Re.ParseLimit

/-!
C70: `re.find` gives the leftmost match of a regular expression, at that place the
preferred one (greedy multiplicities take many turns, lazy ones few, earlier
alternatives come first), with the places of its groups; it gives void only if the
expression matches nowhere.
-/

namespace Verif.Re

open Spec

/-- What `re.find` should give: `Lang` and `best` of the specification. -/
def Right (r : Regex) (str : List Nat) (lo hi : Nat) (o : Out) : Prop :=
  (o = .void ∧ ∀ i, lo ≤ i → i ≤ hi → ∀ j, ¬ Lang ⟨str, lo, hi⟩ r i j) ∨
  ∃ i st, o = .found ⟨i, st.pos, (List.range r.groups).map st.groups⟩ ∧ lo ≤ i ∧ i ≤ hi ∧
    best ⟨str, lo, hi⟩ r i = some st ∧ Lang ⟨str, lo, hi⟩ r i st.pos ∧
    ∀ y, lo ≤ y → y < i → ∀ j, ¬ Lang ⟨str, lo, hi⟩ r y j

/-- The full claim.  Sizes are limited by the 16-bit words of the code; strings
have at most 65535 characters. -/
def C70_full : Prop := ∀ (r : Regex) (str : List Nat) (lo hi : Nat), r.ok → r.size ≤ 32767 → lo ≤ hi → hi ≤ str.length →
  str.length ≤ 65535 → ∃ p, compile r.text = some p ∧ ∃ n o, (∀ m, n ≤ m → find m p str lo hi = some o) ∧ Right r str lo hi o

theorem seen_id {g : Option (Nat × Nat)} (h : ∀ b e, g = some (b, e) → b < 65535 ∧ e < 65535) : seen g = g := by
  cases g with
  | none => rfl
  | some p =>
    have := h p.1 p.2 rfl
    simp only [seen]
    rw [if_pos (by omega)]

/-- The claim where the search ends in front of position 65535 and no character
class has an item which is swallowed (see C69). -/
theorem C70_find_partial {r : Regex} {str : List Nat} {lo hi : Nat} (hok : r.ok) (ho : r.orderly) (hs : r.size ≤ 32767)
    (hle : lo ≤ hi) (hhi : hi < 65535) :
    ∃ p, compile r.text = some p ∧ ∃ n o, (∀ m, n ≤ m → find m p str lo hi = some o) ∧ Right r str lo hi o := by
  obtain ⟨p, hp, hc⟩ := compile_ok hok ho hs
  refine ⟨p, hp, ?_⟩
  obtain ⟨n, o, hn, h⟩ := find_spec hc hok (str := str) hle (by omega)
  refine ⟨n, o, hn, ?_⟩
  rcases h with h | ⟨i, st, h1, h2, h3, h4, h5, h6, h7⟩
  · exact .inl h
  · refine .inr ⟨i, st, ?_, h2, h3, h4, h5, h7⟩
    rw [h1]
    simp only [shown]
    congr 2
    refine List.map_congr_left fun k _ => seen_id fun b e hg => ?_
    have := h6.2.2 k b e hg
    omega

/-- With the whole range of positions, everything is right but for groups at
position 65535. -/
theorem C70_places_partial {r : Regex} {str : List Nat} {lo hi : Nat} (hok : r.ok) (ho : r.orderly) (hs : r.size ≤ 32767)
    (hle : lo ≤ hi) (hhi : hi ≤ 65535) :
    ∃ p, compile r.text = some p ∧ ∃ n o, (∀ m, n ≤ m → find m p str lo hi = some o) ∧
      ((o = .void ∧ ∀ i, lo ≤ i → i ≤ hi → ∀ j, ¬ Lang ⟨str, lo, hi⟩ r i j) ∨
      ∃ i st gs, o = .found ⟨i, st.pos, gs⟩ ∧ lo ≤ i ∧ i ≤ hi ∧ best ⟨str, lo, hi⟩ r i = some st ∧
        (∀ y, lo ≤ y → y < i → ∀ j, ¬ Lang ⟨str, lo, hi⟩ r y j) ∧ gs.length = r.groups ∧
        ∀ k b e, gs[k]? = some (some (b, e)) → st.groups k = some (b, e)) := by
  obtain ⟨p, hp, hc⟩ := compile_ok hok ho hs
  refine ⟨p, hp, ?_⟩
  obtain ⟨n, o, hn, h⟩ := find_spec hc hok (str := str) hle hhi
  refine ⟨n, o, hn, ?_⟩
  rcases h with h | ⟨i, st, h1, h2, h3, h4, h5, h6, h7⟩
  · exact .inl h
  · refine .inr ⟨i, st, _, h1, h2, h3, h4, h7, by simp, fun k b e hk => ?_⟩
    rw [List.getElem?_map, Option.map_eq_some_iff] at hk
    obtain ⟨k', hk', hs⟩ := hk
    have hkk : k' = k := by
      have := List.getElem?_eq_some_iff.1 hk'
      obtain ⟨hl, he⟩ := this
      simpa using he.symm
    subst hkk
    cases hg : st.groups k' with
    | none => rw [hg] at hs; cases hs
    | some q =>
      obtain ⟨q1, q2⟩ := q
      rw [hg] at hs
      simp only [seen] at hs
      split at hs
      · exact hs
      · cases hs

/-- There is a preferred match exactly where there is a match. -/
theorem C70_best {r : Regex} {S : Subject} (hok : r.ok) (hhi : S.hi ≤ 65535) {i : Nat} (hi : i ≤ S.hi) :
    (best S r i).isSome = true ↔ ∃ j, Lang S r i j := by
  have h := best_none S hhi hok hi
  cases hb : best S r i with
  | none =>
    have := h.1 hb
    simp only [Option.isSome_none, Bool.false_eq_true, false_iff]
    rintro ⟨j, hj⟩
    exact this j hj
  | some st =>
    have := best_some S hhi hok hi hb
    simp only [Option.isSome_some, true_iff]
    exact ⟨_, this.1⟩

/-- Whatever text is accepted, the code is so short that the distance of every jump fits
a signed word. -/
theorem C70_limit {text : List Nat} {p : Prog} (h : compile text = some p) : p.code.length ≤ 32767 :=
  compile_short h

/-- `()`. -/
def emptyGroup : Regex := .group true .empty none .empty

/-- The group of `()`, found at the end of a string of 65535 characters, is shown
as one which has not taken part in the match. -/
theorem C70_violated : ¬ C70_full := by
  intro h
  obtain ⟨p, hp, n, o, hn, hr⟩ := h emptyGroup (List.replicate 65535 97) 65535 65535 ⟨trivial, trivial, trivial, trivial⟩
    (by decide) (Nat.le_refl _) (by rw [List.length_replicate]; exact Nat.le_refl _)
    (by rw [List.length_replicate]; exact Nat.le_refl _)
  have hp' : compile emptyGroup.text = some ⟨[8, 0, 9, 0], [], [], 1, 0⟩ := by decide +kernel
  rw [hp'] at hp
  cases hp
  have hf := hn (n + 4) (by omega)
  have hrun : ∀ str, find (n + 4) ⟨[8, 0, 9, 0], [], [], 1, 0⟩ str 65535 65535 = some (.found ⟨65535, 65535, [none]⟩) := by
    intro str
    rfl
  rw [hrun] at hf
  cases hf
  rcases hr with ⟨h1, _⟩ | ⟨i, st, h1, h2, h3, h4, _⟩
  · cases h1
  · have hi : i = 65535 := by omega
    subst hi
    simp only [best, outcomes, emptyGroup, repeated] at h4
    cases h4
    simp [emptyGroup, Regex.groups, State.capture, List.range_succ] at h1

/-! Examples. -/

/-- `(a|ab)(c|bcd)(d*)`. -/
def exRegex : Regex :=
  .group true (.alt (.atom (.char 97) none .empty) (.atom (.char 97) none (.atom (.char 98) none .empty))) none
    (.group true (.alt (.atom (.char 99) none .empty)
      (.atom (.char 98) none (.atom (.char 99) none (.atom (.char 100) none .empty)))) none
      (.group true (.atom (.char 100) (some ⟨.star, false⟩) .empty) none .empty))

def runFind (text : String) (str : String) : Option Out :=
  match compile (text.toList.map Char.toNat) with
  | some p => find 1000 p (str.toList.map Char.toNat) 0 str.length
  | none => none

#guard exRegex.text = "(a|ab)(c|bcd)(d*)".toList.map Char.toNat
#guard runFind "(a|ab)(c|bcd)(d*)" "xabcd" = some (.found ⟨1, 5, [some (1, 2), some (2, 5), some (5, 5)]⟩)
#guard (best ⟨"xabcd".toList.map Char.toNat, 0, 5⟩ exRegex 1).map (fun st => (st.pos, (List.range 3).map st.groups)) =
  some (5, [some (1, 2), some (2, 5), some (5, 5)])
#guard runFind "(?:ab){2,3}?" "ababab" = some (.found ⟨0, 4, []⟩)
#guard runFind "(a)*b" "aaac" = some .void
#guard runFind "(a+)+b" "aaabc" = some (.found ⟨0, 4, [some (0, 3)]⟩)

end Verif.Re
