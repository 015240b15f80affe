import Verif.Lib.Shuffle

/-
C43: shuffle returns a permutation.
C63: shuffle can return every permutation, and returns all equally often.
-/
namespace Verif.Shuffle

variable {α σ : Type}

/-- The full claim: whatever numbers in range the source gives, the elements are the same with the same multiplicities. -/
def C43_full : Prop := ∀ (α σ : Type) (range : Nat → σ → Nat × σ), (∀ max s, (range max s).1 ≤ max) →
  ∀ (s : σ) (l : List α), ∃ l' s', shuffle range s l = some (l', s') ∧ l'.Perm l

theorem swapAt_perm (l : List α) (i j : Nat) (hi : i < l.length) (hj : j < l.length) : ∃ l', swapAt l i j = some l' ∧ l'.Perm l := by
  refine ⟨(l.set i l[j]).set j l[i], ?_, List.set_set_perm hi hj⟩
  simp [swapAt, hi, hj]

theorem loop_perm (rand : σ → Nat × σ) (max : Nat) (hr : ∀ s, (rand s).1 ≤ max) (idx : Nat) (s : σ) (l : List α) (hl : l.length = max + 1) (hi : idx ≤ max) :
    ∃ l' s', loop rand idx s l = some (l', s') ∧ l'.Perm l := by
  induction idx generalizing s l with
  | zero => exact ⟨l, s, rfl, .refl _⟩
  | succ idx ih =>
    unfold loop
    simp only
    split
    · obtain ⟨l1, e, hp⟩ := swapAt_perm l idx (rand s).1 (by omega) (by have := hr s; omega)
      rw [e]
      simp only
      obtain ⟨l', s', e', hp'⟩ := ih (rand s).2 l1 (by rw [hp.length_eq, hl]) (by omega)
      exact ⟨l', s', e', hp'.trans hp⟩
    · exact ih (rand s).2 l hl (by omega)

/-- **C43** -/
theorem C43 : C43_full := by
  intro α σ range hr s l
  unfold shuffle
  split
  · exact loop_perm _ (l.length - 1) (hr _) _ s l (by omega) (Nat.le_refl _)
  · exact ⟨l, s, rfl, .refl _⟩

/-- A source which gives the numbers of a list. -/
def given (_ : Nat) : List Nat → Nat × List Nat
  | [] => (0, [])
  | n :: l => (n, l)

example : shuffle given [3, 0, 2] ['a', 'b', 'c', 'd'] = some (['d', 'a', 'b', 'c'], []) := by decide

/-- All lists of `k` numbers up to `max`. -/
def choices (max : Nat) : Nat → List (List Nat)
  | 0 => [[]]
  | k + 1 => (choices max k).flatMap fun l => (List.range (max + 1)).map (· :: l)

/-- How many choices of the source give `l'`. -/
def ways [DecidableEq α] (l l' : List α) : Nat := ((choices (l.length - 1) (l.length - 1)).filter fun c => (shuffle given c l).map (·.1) = some l').length

/-- The full claim: if the source gives all numbers equally often then all permutations of different elements are equally frequent. -/
def C63_full : Prop := ∀ (l l' l'' : List Nat), l.Nodup → l'.Perm l → l''.Perm l → 0 < ways l l' ∧ ways l l' = ways l l''

theorem swapAt_up (p q r : List α) (x y : α) : swapAt (p ++ x :: (q ++ y :: r)) p.length (p.length + 1 + q.length) = some (p ++ y :: (q ++ x :: r)) := by
  unfold swapAt
  have e1 : (p ++ x :: (q ++ y :: r))[p.length]? = some x := by simp
  have e2 : (p ++ x :: (q ++ y :: r))[p.length + 1 + q.length]? = some y := by
    rw [List.getElem?_append_right (by omega), show p.length + 1 + q.length - p.length = q.length + 1 by omega]; simp
  rw [e1, e2]
  simp only [Option.some.injEq]
  rw [List.set_append_right _ _ (Nat.le_refl _), Nat.sub_self, List.set_cons_zero, List.set_append_right _ _ (by omega),
    show p.length + 1 + q.length - p.length = q.length + 1 by omega, List.set_cons_succ, List.set_append_right _ _ (Nat.le_refl _), Nat.sub_self, List.set_cons_zero]

theorem swapAt_down (p q r : List α) (x y : α) : swapAt (p ++ x :: (q ++ y :: r)) (p.length + 1 + q.length) p.length = some (p ++ y :: (q ++ x :: r)) := by
  unfold swapAt
  have e1 : (p ++ x :: (q ++ y :: r))[p.length]? = some x := by simp
  have e2 : (p ++ x :: (q ++ y :: r))[p.length + 1 + q.length]? = some y := by
    rw [List.getElem?_append_right (by omega), show p.length + 1 + q.length - p.length = q.length + 1 by omega]; simp
  rw [e1, e2]
  simp only [Option.some.injEq]
  rw [List.set_append_right _ _ (show p.length ≤ _ by omega),
    show p.length + 1 + q.length - p.length = q.length + 1 by omega, List.set_cons_succ, List.set_append_right _ _ (Nat.le_refl _), Nat.sub_self, List.set_cons_zero,
    List.set_append_right _ _ (Nat.le_refl _), Nat.sub_self, List.set_cons_zero]

/-- Numbers of the source can be chosen so that the loop gives any permutation of the elements which were not placed. -/
theorem loop_reach [DecidableEq α] (a a' f : List α) (z z' : α) (ha : a'.length = a.length) (hp : (z' :: a').Perm (z :: a)) :
    ∃ c : List Nat, c.length = a.length ∧ (∀ n ∈ c, n ≤ a.length + f.length) ∧
      loop (given 0) a.length c (a ++ (f ++ [z])) = some (a' ++ (f ++ [z']), []) := by
  induction h : a.length generalizing a a' f z z' with
  | zero =>
    have e1 := List.eq_nil_of_length_eq_zero h
    rw [h] at ha
    have e2 := List.eq_nil_of_length_eq_zero ha
    subst e1 e2
    have : z' = z := by simpa using hp
    subst this
    exact ⟨[], rfl, by simp, rfl⟩
  | succ k ih =>
    rw [h] at ha
    obtain ⟨b, s, rfl⟩ : ∃ b s, a = b ++ [s] := ⟨a.dropLast, a.getLast (by intro e; simp [e] at h), (List.dropLast_concat_getLast _).symm⟩
    obtain ⟨b', t, rfl⟩ : ∃ b s, a' = b ++ [s] := ⟨a'.dropLast, a'.getLast (by intro e; simp [e] at ha), (List.dropLast_concat_getLast _).symm⟩
    have hb : b.length = k := by simpa using h
    have hb' : b'.length = k := by simpa using ha
    have q1 : (z' :: (b' ++ [t])).Perm (t :: z' :: b') := by
      have : (z' :: b' ++ [t]).Perm (t :: (z' :: b')) := List.perm_append_singleton t (z' :: b')
      exact this
    have q2 : (z :: (b ++ [s])).Perm (s :: z :: b) := by
      have : (z :: b ++ [s]).Perm (s :: (z :: b)) := List.perm_append_singleton s (z :: b)
      exact this
    have hp2 : (t :: z' :: b').Perm (s :: z :: b) := q1.symm.trans (hp.trans q2)
    -- the number to choose and what is left
    have hstep : ∃ n b2 z2, n ≤ k + (f.length + 1) ∧ b2.length = k ∧ (z' :: b').Perm (z2 :: b2) ∧
        (if k ≠ n then swapAt (b ++ [s] ++ (f ++ [z])) k n = some (b2 ++ ((t :: f) ++ [z2])) else b ++ [s] ++ (f ++ [z]) = b2 ++ ((t :: f) ++ [z2])) := by
      have hmem : t ∈ s :: z :: b := hp2.subset (by simp)
      by_cases hts : t = s
      · subst hts
        exact ⟨k, b, z, by omega, hb, (List.perm_cons t).1 hp2, by simp⟩
      · by_cases htz : t = z
        · subst htz
          refine ⟨k + 1 + f.length, b, s, by omega, hb, ?_, ?_⟩
          · exact (List.perm_cons t).1 (hp2.trans (List.Perm.swap _ _ _))
          · rw [if_pos (by omega)]
            have := swapAt_up b f [] s t
            rw [hb] at this
            simpa using this
        · have htb : t ∈ b := by simpa [hts, htz] using hmem
          obtain ⟨b1, b2, rfl⟩ := List.append_of_mem htb
          have hk : b1.length + 1 + b2.length = k := by simp at hb; omega
          refine ⟨b1.length, b1 ++ s :: b2, z, by omega, by simp; omega, ?_, ?_⟩
          · have r1 : (s :: z :: (b1 ++ t :: b2)).Perm (t :: z :: (b1 ++ s :: b2)) := by
              have u1 : (b1 ++ t :: b2).Perm (t :: (b1 ++ b2)) := List.perm_middle
              have u2 : (b1 ++ s :: b2).Perm (s :: (b1 ++ b2)) := List.perm_middle
              refine ((u1.cons z).cons s).trans ?_
              refine List.Perm.trans ?_ ((u2.symm.cons z).cons t)
              exact ((List.Perm.swap t z _).cons s).trans ((List.Perm.swap t s _).trans ((List.Perm.swap z s _).cons t))
            exact (List.perm_cons t).1 (hp2.trans r1)
          · rw [if_pos (by omega)]
            have := swapAt_down b1 b2 (f ++ [z]) t s
            rw [hk] at this
            simpa using this
    obtain ⟨n, b2, z2, hn, hb2, hp3, hs⟩ := hstep
    obtain ⟨c, hc1, hc2, hc3⟩ := ih b2 b' (t :: f) z2 z' (by omega) hp3 hb2
    refine ⟨n :: c, by simp [hc1], ?_, ?_⟩
    · intro m hm
      rcases List.mem_cons.1 hm with rfl | hm
      · omega
      · have := hc2 m hm
        simp at this
        omega
    · have hend : b' ++ ((t :: f) ++ [z']) = b' ++ [t] ++ (f ++ [z']) := by simp
      rw [hend] at hc3
      have hl : loop (given 0) (k + 1) (n :: c) (b ++ [s] ++ (f ++ [z])) = if k ≠ n then
          (match swapAt (b ++ [s] ++ (f ++ [z])) k n with
          | none => none
          | some l => loop (given 0) k c l)
        else loop (given 0) k c (b ++ [s] ++ (f ++ [z])) := rfl
      rw [hl]
      by_cases hkn : k ≠ n
      · rw [if_pos hkn] at hs
        rw [if_pos hkn, hs]
        exact hc3
      · rw [if_neg hkn] at hs
        rw [if_neg hkn, hs]
        exact hc3

theorem mem_choices (max k : Nat) (c : List Nat) : c ∈ choices max k ↔ c.length = k ∧ ∀ n ∈ c, n ≤ max := by
  induction k generalizing c with
  | zero => simp [choices]; intro h; simp [h]
  | succ k ih =>
    simp only [choices, List.mem_flatMap, List.mem_map, List.mem_range]
    constructor
    · rintro ⟨l, hl, n, hn, rfl⟩
      obtain ⟨h1, h2⟩ := (ih l).1 hl
      exact ⟨by simp [h1], fun m hm => by rcases List.mem_cons.1 hm with rfl | hm; omega; exact h2 m hm⟩
    · rintro ⟨h1, h2⟩
      cases c with
      | nil => simp at h1
      | cons n l => exact ⟨l, (ih l).2 ⟨by simpa using h1, fun m hm => h2 m (by simp [hm])⟩, n, by have := h2 n (by simp); omega, rfl⟩

theorem given_eq : given = fun _ => given 0 := by funext m l; cases l <;> rfl

/-- **C63**: every permutation comes out for some numbers of the source.  What is missing: that all are equally frequent
(`C63_violated`). -/
theorem C63_partial [DecidableEq α] (l l' : List α) (h : l'.Perm l) : 0 < ways l l' := by
  have key : ∃ c, c.length = l.length - 1 ∧ (∀ n ∈ c, n ≤ l.length - 1) ∧ (shuffle given c l).map (·.1) = some l' := by
    by_cases hl : l.length > 1
    · obtain ⟨a, z, rfl⟩ : ∃ b s, l = b ++ [s] := ⟨l.dropLast, l.getLast (by intro e; simp [e] at hl), (List.dropLast_concat_getLast _).symm⟩
      have hl' := h.length_eq
      obtain ⟨a', z', rfl⟩ : ∃ b s, l' = b ++ [s] := ⟨l'.dropLast, l'.getLast (by intro e; simp [e] at hl'), (List.dropLast_concat_getLast _).symm⟩
      simp only [List.length_append, List.length_singleton] at hl hl'
      obtain ⟨c, h1, h2, h3⟩ := loop_reach a a' [] z z' (by omega) ((List.perm_append_singleton z' a').symm.trans (h.trans (List.perm_append_singleton z a)))
      refine ⟨c, by simp [h1], fun n hn => by have := h2 n hn; simp at this ⊢; omega, ?_⟩
      unfold shuffle
      simp only [List.length_append, List.length_singleton, Nat.add_sub_cancel]
      rw [if_pos hl, given_eq]
      rw [List.nil_append, List.nil_append] at h3
      rw [h3]
      rfl
    · refine ⟨[], ?_, by simp, ?_⟩
      · simp; omega
      · unfold shuffle
        rw [if_neg hl]
        have : l' = l := by
          match l, h, hl with
          | [], h, _ => exact List.Perm.eq_nil h
          | [x], h, _ => exact List.perm_singleton.1 h
          | _ :: _ :: _, _, hl => simp at hl
        rw [this]
        rfl
  obtain ⟨c, h1, h2, h3⟩ := key
  refine List.length_pos_of_mem (a := c) (List.mem_filter.2 ⟨(mem_choices _ _ _).2 ⟨h1, h2⟩, by simpa using h3⟩)

/-- Two of the nine choices for three elements give [0, 1, 2], and one gives [0, 2, 1]. -/
theorem C63_violated : ¬ C63_full := fun h => by
  have := (h [0, 1, 2] [0, 1, 2] [0, 2, 1] (by decide) (by decide) (by decide)).2
  revert this
  decide

end Verif.Shuffle
