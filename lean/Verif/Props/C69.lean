import Verif.Props.C70

/-!
C69: a character class of a regular expression matches exactly the characters which
are listed in the brackets, or exactly the other ones after `^`.
-/

namespace Verif.Re

open Spec

/-- The expression with one class. -/
def classRegex (neg : Bool) (items : List ClassItem) : Regex := .atom (.cls neg items) none .empty

/-- `re.find` in a string of one character finds it exactly if it should. -/
def ClassRight (neg : Bool) (items : List ClassItem) : Prop :=
  ∃ p, compile (classRegex neg items).text = some p ∧ ∀ c, ∃ n, ∀ m, n ≤ m →
    find m p [c] 0 1 = some (if listed items c != neg then .found ⟨0, 1, []⟩ else .void)

/-- The full claim. -/
def C69_full : Prop := ∀ neg items, (Atom.cls neg items).ok → ClassRight neg items

/-- The claim for classes without swallowed items: an item is swallowed if its
characters and the two beside them are already listed, and further behind there is
another listed character after one which is not listed. -/
theorem C69_class_partial {neg : Bool} {items : List ClassItem} (hok : (Atom.cls neg items).ok) (ho : orderly items) :
    ClassRight neg items := by
  have hrok : (classRegex neg items).ok := ⟨hok, trivial, trivial, trivial⟩
  obtain ⟨p, hp, hc⟩ := compile_ok hrok ⟨ho, trivial⟩ (by simp [classRegex, Regex.size, Atom.size])
  refine ⟨p, hp, fun c => ?_⟩
  obtain ⟨n, o, hn, h⟩ := find_spec hc hrok (str := [c]) (lo := 0) (hi := 1) (by omega) (by omega)
  refine ⟨n, fun m hm => ?_⟩
  rw [hn m hm]
  congr 1
  have hL : ∀ i j, Lang ⟨[c], 0, 1⟩ (classRegex neg items) i j ↔ i = 0 ∧ j = 1 ∧ (listed items c != neg) = true := by
    intro i j
    simp only [classRegex, Lang, Repeated, Atom.go, exists_eq_right]
    cases i with
    | zero =>
      simp only [Subject.at, Nat.lt_succ_self, if_true, List.getElem?_cons_zero]
      by_cases hl : (listed items c != neg) = true
      · rw [if_pos hl]
        simp [hl]
        omega
      · rw [if_neg hl]
        simp only [Bool.not_eq_true] at hl
        simp [hl]
    | succ i => simp [Subject.at]
  rcases h with ⟨h1, h2⟩ | ⟨i, st, h1, h2, h3, h4, h5, h6, h7⟩
  · have := h2 0 (Nat.le_refl _) (by omega) 1
    rw [hL] at this
    simp only [true_and] at this
    rw [if_neg this]
    exact h1
  · have := (hL _ _).1 h5
    rw [if_pos this.2.2, h1]
    simp only [shown, this.1, this.2.1]
    rfl

/-- Adding ranges one after the other and looking a character up is membership, for
all lists of ranges of which none is swallowed. -/
theorem C69_ranges_partial {l : List (Nat × Nat)} (hne : l ≠ []) (hle : ∀ p ∈ l, p.1 ≤ p.2)
    (hp : ∀ pre p post, l = pre ++ p :: post → Plain pre p) (c : Nat) :
    matchClass (rangesOf l) c = some (l.any fun p => decide (p.1 ≤ c) && decide (c ≤ p.2)) :=
  rangesOf_match hne hle hp c

/-- `a-z~c`. -/
def swallowing : List ClassItem := [.range (.raw 97) (.raw 122), .one (.raw 126), .one (.raw 99)]

/-- `[a-z~c]` does not match `x`. -/
theorem C69_violated : ¬ C69_full := by
  intro h
  obtain ⟨p, hp, hc⟩ := h false swallowing ⟨by simp [swallowing], by simp [swallowing, ClassItem.ok, ClassChar.ok, ClassChar.code],
    by simp [swallowing, ClassItem.text, ClassChar.text]⟩
  have hp' : compile (classRegex false swallowing).text = some ⟨[3, 0], [(0, 2)], [(97, 99), (126, 126)], 0, 0⟩ := by
    decide +kernel
  rw [hp'] at hp
  cases hp
  obtain ⟨n, hn⟩ := hc 120
  have h1 := hn (n + 3) (by omega)
  have h2 : find (n + 3) ⟨[3, 0], [(0, 2)], [(97, 99), (126, 126)], 0, 0⟩ [120] 0 1 = some .void := rfl
  rw [h2] at h1
  have h3 : (listed swallowing 120 != false) = true := by decide
  rw [if_pos h3] at h1
  cases h1

/-! Examples: a class in order, and the text of the one which is not. -/

#guard runFind "[a-cx-z~b]" "b" = some (.found ⟨0, 1, []⟩)
#guard runFind "[^a-cx-z]" "ax~" = some (.found ⟨2, 3, []⟩)
#guard (classRegex false swallowing).text = "[a-z~c]".toList.map Char.toNat
#guard runFind "[a-z~c]" "x" = some .void
#guard runFind "[a-z~]" "x" = some (.found ⟨0, 1, []⟩)

end Verif.Re
