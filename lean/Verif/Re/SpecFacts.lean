import Verif.Re.Spec

/-!
# The preferred matches are all matches

The list `outcomes` has a match for every place of `Lang` and no other one.
-/

namespace Verif.Re.Spec

/-- Matches go forward and stay in front of the cut. -/
def Grows (hi : Nat) (R : Nat → Nat → Prop) : Prop := ∀ i j, R i j → i ≤ j ∧ (i ≤ hi → j ≤ hi)

/-- The function gives the places of the relation. -/
def Shows (hi : Nat) (F : State → List State) (R : Nat → Nat → Prop) : Prop :=
  ∀ st, st.pos ≤ hi → ∀ j, (∃ st' ∈ F st, st'.pos = j) ↔ R st.pos j

theorem Chain.grows {hi : Nat} {R : Nat → Nat → Prop} (h : Grows hi R) : ∀ n, Grows hi (Chain R n)
  | 0, i, j, hc => by
    simp only [Chain] at hc
    omega
  | n + 1, i, j, ⟨m, h1, h2⟩ => by
    have := h _ _ h1
    have := Chain.grows h n _ _ h2
    omega

/-- A turn without a character can be left out. -/
theorem Chain.skip {hi : Nat} {R : Nat → Nat → Prop} (h : Grows hi R) : ∀ n i j, Chain R (n + 1) i j →
    j - i < n + 1 → Chain R n i j
  | 0, i, j, ⟨m, h1, h2⟩, hlt => by
    simp only [Chain] at h2 ⊢
    have := h _ _ h1
    omega
  | n + 1, i, j, ⟨m, h1, h2⟩, hlt => by
    by_cases he : m = i
    · rw [he] at h2
      exact h2
    · refine ⟨m, h1, Chain.skip h n m j h2 ?_⟩
      have := h _ _ h1
      have := (Chain.grows h (n + 1) _ _ h2).1
      omega

/-- So there are not more turns than are needed. -/
theorem Chain.short {hi : Nat} {R : Nat → Nat → Prop} (h : Grows hi R) {b : Nat} : ∀ n i j, Chain R n i j → j - i ≤ b →
    ∀ m, m ≤ b → m ≤ n → ∃ n', m ≤ n' ∧ n' ≤ b ∧ Chain R n' i j
  | 0, i, j, hc, hb, m, hm, hmn => ⟨0, hmn, Nat.zero_le _, hc⟩
  | n + 1, i, j, hc, hb, m, hm, hmn => by
    by_cases hle : n + 1 ≤ b
    · exact ⟨n + 1, hmn, hle, hc⟩
    · exact Chain.short h n i j (Chain.skip h n i j hc (by omega)) hb m hm (by omega)

theorem upTo_shows {hi : Nat} {F : State → List State} {R : Nat → Nat → Prop} (hg : Grows hi R) (hF : Shows hi F R)
    (lazy : Bool) : ∀ n, Shows hi (upTo lazy F n) fun i j => ∃ k, k ≤ n ∧ Chain R k i j
  | 0, st, hst, j => by
    simp only [upTo, List.mem_singleton, exists_eq_left]
    constructor
    · intro h; exact ⟨0, Nat.le_refl _, h⟩
    · rintro ⟨k, hk, hc⟩
      have : k = 0 := by omega
      subst this
      exact hc
  | n + 1, st, hst, j => by
    have hmem : (∃ st' ∈ upTo lazy F (n + 1) st, st'.pos = j) ↔
        st.pos = j ∨ ∃ st' ∈ (F st).flatMap (upTo lazy F n), st'.pos = j := by
      cases lazy <;> simp only [upTo, Bool.false_eq_true, if_false, if_true, List.mem_append, List.mem_cons,
        List.not_mem_nil, or_false]
      · constructor
        · rintro ⟨s, h | rfl, h'⟩
          · exact .inr ⟨s, h, h'⟩
          · exact .inl h'
        · rintro (h | ⟨s, h, h'⟩)
          · exact ⟨st, .inr rfl, h⟩
          · exact ⟨s, .inl h, h'⟩
      · constructor
        · rintro ⟨s, rfl | h, h'⟩
          · exact .inl h'
          · exact .inr ⟨s, h, h'⟩
        · rintro (h | ⟨s, h, h'⟩)
          · exact ⟨st, .inl rfl, h⟩
          · exact ⟨s, .inr h, h'⟩
    rw [hmem]
    constructor
    · rintro (h | ⟨s, h, h'⟩)
      · exact ⟨0, Nat.zero_le _, h⟩
      · obtain ⟨s1, h1, h2⟩ := List.mem_flatMap.1 h
        have hr := (hF st hst s1.pos).1 ⟨s1, h1, rfl⟩
        obtain ⟨k, hk, hc⟩ := (upTo_shows hg hF lazy n s1 ((hg _ _ hr).2 hst) j).1 ⟨s, h2, h'⟩
        exact ⟨k + 1, by omega, s1.pos, hr, hc⟩
    · rintro ⟨k, hk, hc⟩
      cases k with
      | zero => exact .inl hc
      | succ k =>
        obtain ⟨m, hr, hc⟩ := hc
        obtain ⟨s1, h1, rfl⟩ := (hF st hst m).2 hr
        obtain ⟨s, h2, h'⟩ := (upTo_shows hg hF lazy n s1 ((hg _ _ hr).2 hst) j).2 ⟨k, by omega, hc⟩
        exact .inr ⟨s, List.mem_flatMap.2 ⟨s1, h1, h2⟩, h'⟩

theorem turns_shows {hi : Nat} {F : State → List State} {R : Nat → Nat → Prop} (hg : Grows hi R) (hF : Shows hi F R)
    (lazy : Bool) (n : Nat) : ∀ m, Shows hi (turns lazy F n m) fun i j => ∃ k, m ≤ k ∧ k ≤ m + n ∧ Chain R k i j
  | 0, st, hst, j => by
    have := upTo_shows hg hF lazy n st hst j
    simp only [turns, Nat.zero_le, true_and, Nat.zero_add]
    exact this
  | m + 1, st, hst, j => by
    simp only [turns]
    constructor
    · rintro ⟨s, h, h'⟩
      obtain ⟨s1, h1, h2⟩ := List.mem_flatMap.1 h
      have hr := (hF st hst s1.pos).1 ⟨s1, h1, rfl⟩
      obtain ⟨k, hk, hk', hc⟩ := (turns_shows hg hF lazy n m s1 ((hg _ _ hr).2 hst) j).1 ⟨s, h2, h'⟩
      exact ⟨k + 1, by omega, by omega, s1.pos, hr, hc⟩
    · rintro ⟨k, hk, hk', hc⟩
      cases k with
      | zero => omega
      | succ k =>
        obtain ⟨x, hr, hc⟩ := hc
        obtain ⟨s1, h1, rfl⟩ := (hF st hst x).2 hr
        obtain ⟨s, h2, h'⟩ := (turns_shows hg hF lazy n m s1 ((hg _ _ hr).2 hst) j).2 ⟨k, by omega, by omega, hc⟩
        exact ⟨s, List.mem_flatMap.2 ⟨s1, h1, h2⟩, h'⟩

theorem Repeated.grows {hi : Nat} {R : Nat → Nat → Prop} (h : Grows hi R) (q : Option Quant) :
    Grows hi (Repeated R q) := by
  cases q with
  | none => exact h
  | some q =>
    rintro i j ⟨n, _, _, hc⟩
    exact Chain.grows h n i j hc

theorem Times.ok_le {t : Times} (h : t.ok) : t.min ≤ t.limit ∧ t.min ≤ 65535 := by
  cases t <;> simp only [Times.ok, Times.min, Times.limit, Times.max, numeral, Option.getD_none, Option.getD_some] at h ⊢ <;>
    omega

theorem repeated_shows {hi : Nat} (hhi : hi ≤ 65535) {F : State → List State} {R : Nat → Nat → Prop} (hg : Grows hi R)
    (hF : Shows hi F R) {q : Option Quant} (hq : qok q) : Shows hi (repeated F q) (Repeated R q) := by
  cases q with
  | none => exact hF
  | some q =>
    intro st hst j
    have ht := Times.ok_le hq
    simp only [repeated, Repeated]
    rw [turns_shows hg hF q.lazy _ _ st hst j]
    constructor
    · rintro ⟨k, h1, h2, hc⟩
      refine ⟨k, h1, fun m hm => ?_, hc⟩
      have : q.times.limit = m := by simp [Times.limit, hm]
      omega
    · rintro ⟨k, h1, h2, hc⟩
      cases hm : q.times.max with
      | none =>
        have hl : q.times.limit = 65535 := by simp [Times.limit, hm]
        have hgc := Chain.grows hg k _ _ hc
        obtain ⟨k', h3, h4, hc'⟩ := Chain.short hg k _ _ hc (b := 65535) (by omega) q.times.min ht.2 h1
        exact ⟨k', h3, by omega, hc'⟩
      | some m =>
        have hl : q.times.limit = m := by simp [Times.limit, hm]
        have := h2 m hm
        exact ⟨k, h1, by omega, hc⟩

theorem Atom.grows (S : Subject) (a : Atom) : Grows S.hi fun i j => a.go S i = some j := by
  intro i j h
  have hat : ∀ c, S.at i = some c → i < S.hi := by
    intro c hc
    unfold Subject.at at hc
    split at hc
    · assumption
    · cases hc
  have hone : ∀ c, S.at i = some c → some (i + 1) = some j → i ≤ j ∧ (i ≤ S.hi → j ≤ S.hi) := by
    intro c hc he
    have := hat c hc
    cases he
    omega
  cases a with
  | char c =>
    simp only [Atom.go] at h
    split at h
    · exact hone _ ‹_› h
    · cases h
  | escaped c =>
    simp only [Atom.go] at h
    split at h
    · exact hone _ ‹_› h
    · cases h
  | control c =>
    simp only [Atom.go] at h
    split at h
    · exact hone _ ‹_› h
    · cases h
  | any =>
    simp only [Atom.go] at h
    split at h
    · rename_i hs
      obtain ⟨c, hc⟩ := Option.isSome_iff_exists.1 hs
      exact hone c hc h
    · cases h
  | lineBegin => simp only [Atom.go] at h; split at h <;> cases h; omega
  | lineEnd => simp only [Atom.go] at h; split at h <;> cases h; omega
  | boundary b => simp only [Atom.go] at h; split at h <;> cases h; omega
  | digit neg =>
    simp only [Atom.go] at h
    split at h
    · split at h
      · exact hone _ ‹_› h
      · cases h
    · cases h
  | word neg =>
    simp only [Atom.go] at h
    split at h
    · split at h
      · exact hone _ ‹_› h
      · cases h
    · cases h
  | cls neg items =>
    simp only [Atom.go] at h
    split at h
    · split at h
      · exact hone _ ‹_› h
      · cases h
    · cases h

theorem Lang.grows (S : Subject) : ∀ r, Grows S.hi (Lang S r)
  | .empty, i, j, h => by
    simp only [Lang] at h
    omega
  | .atom a q s, i, j, ⟨m, h1, h2⟩ => by
    have := Repeated.grows (Atom.grows S a) q _ _ h1
    have := Lang.grows S s _ _ h2
    omega
  | .group cap b q s, i, j, ⟨m, h1, h2⟩ => by
    have := Repeated.grows (Lang.grows S b) q _ _ h1
    have := Lang.grows S s _ _ h2
    omega
  | .alt l r, i, j, h => by
    rcases h with h | h
    · exact Lang.grows S l _ _ h
    · exact Lang.grows S r _ _ h

theorem Shows.flatMap {hi : Nat} {F G : State → List State} {R Q : Nat → Nat → Prop} (hg : Grows hi R)
    (hF : Shows hi F R) (hG : Shows hi G Q) : Shows hi (fun st => (F st).flatMap G) fun i j => ∃ m, R i m ∧ Q m j := by
  intro st hst j
  constructor
  · rintro ⟨s, h, h'⟩
    obtain ⟨s1, h1, h2⟩ := List.mem_flatMap.1 h
    have hr := (hF st hst s1.pos).1 ⟨s1, h1, rfl⟩
    exact ⟨s1.pos, hr, (hG s1 ((hg _ _ hr).2 hst) j).1 ⟨s, h2, h'⟩⟩
  · rintro ⟨m, hr, hq⟩
    obtain ⟨s1, h1, rfl⟩ := (hF st hst m).2 hr
    obtain ⟨s, h2, h'⟩ := (hG s1 ((hg _ _ hr).2 hst) j).2 hq
    exact ⟨s, List.mem_flatMap.2 ⟨s1, h1, h2⟩, h'⟩

theorem outcomes_shows (S : Subject) (hhi : S.hi ≤ 65535) : ∀ r g, r.ok → Shows S.hi (outcomes S r g) (Lang S r)
  | .empty, g, _, st, hst, j => by simp [outcomes, Lang]
  | .atom a q s, g, hok, st, hst, j => by
    have hatom : Shows S.hi (fun st : State => match a.go S st.pos with
        | some j => [{ st with pos := j }]
        | none => []) fun i j => a.go S i = some j := by
      intro st hst j
      cases h : a.go S st.pos <;> simp [h]
    exact Shows.flatMap (Repeated.grows (Atom.grows S a) q) (repeated_shows hhi (Atom.grows S a) hatom hok.2.1)
      (outcomes_shows S hhi s g hok.2.2.2) st hst j
  | .group true b q s, g, hok, st, hst, j => by
    have hb : Shows S.hi (fun st => (outcomes S b (g + 1) st).map fun st' => st'.capture g st.pos) (Lang S b) := by
      intro st hst j
      rw [← outcomes_shows S hhi b (g + 1) hok.1 st hst j]
      constructor
      · rintro ⟨s, h, h'⟩
        obtain ⟨s1, h1, rfl⟩ := List.mem_map.1 h
        exact ⟨s1, h1, h'⟩
      · rintro ⟨s, h, h'⟩
        exact ⟨_, List.mem_map.2 ⟨s, h, rfl⟩, h'⟩
    exact Shows.flatMap (Repeated.grows (Lang.grows S b) q) (repeated_shows hhi (Lang.grows S b) hb hok.2.1)
      (outcomes_shows S hhi s _ hok.2.2.2) st hst j
  | .group false b q s, g, hok, st, hst, j =>
    Shows.flatMap (Repeated.grows (Lang.grows S b) q)
      (repeated_shows hhi (Lang.grows S b) (outcomes_shows S hhi b g hok.1) hok.2.1)
      (outcomes_shows S hhi s _ hok.2.2.2) st hst j
  | .alt l r, g, hok, st, hst, j => by
    have h1 := outcomes_shows S hhi l g hok.2.1 st hst j
    have h2 := outcomes_shows S hhi r (g + l.groups) hok.2.2 st hst j
    simp only [outcomes, Lang, List.mem_append]
    rw [← h1, ← h2]
    constructor
    · rintro ⟨s, h | h, h'⟩
      · exact .inl ⟨s, h, h'⟩
      · exact .inr ⟨s, h, h'⟩
    · rintro (⟨s, h, h'⟩ | ⟨s, h, h'⟩)
      · exact ⟨s, .inl h, h'⟩
      · exact ⟨s, .inr h, h'⟩

/-! ### The places of the groups -/

/-- The place and the groups are between the beginning of the match and the cut. -/
def Within (lo hi : Nat) (st : State) : Prop :=
  lo ≤ st.pos ∧ st.pos ≤ hi ∧ ∀ i b e, st.groups i = some (b, e) → lo ≤ b ∧ b ≤ e ∧ e ≤ hi

/-- States stay within the bounds, and the place does not go back. -/
def Keeps (lo hi : Nat) (F : State → List State) : Prop :=
  ∀ st, Within lo hi st → ∀ st' ∈ F st, Within lo hi st' ∧ st.pos ≤ st'.pos

theorem Keeps.flatMap {lo hi : Nat} {F G : State → List State} (hF : Keeps lo hi F) (hG : Keeps lo hi G) :
    Keeps lo hi fun st => (F st).flatMap G := by
  intro st hst st' h
  obtain ⟨s1, h1, h2⟩ := List.mem_flatMap.1 h
  have ha := hF st hst s1 h1
  have hb := hG s1 ha.1 st' h2
  exact ⟨hb.1, by omega⟩

theorem upTo_keeps {lo hi : Nat} {F : State → List State} (hF : Keeps lo hi F) (lazy : Bool) :
    ∀ n, Keeps lo hi (upTo lazy F n)
  | 0, st, hst, st', h => by
    simp only [upTo, List.mem_singleton] at h
    subst h
    exact ⟨hst, Nat.le_refl _⟩
  | n + 1, st, hst, st', h => by
    have hk := Keeps.flatMap hF (upTo_keeps hF lazy n) st hst st'
    have : st' = st ∨ st' ∈ (F st).flatMap (upTo lazy F n) := by
      cases lazy <;> simp only [upTo, Bool.false_eq_true, if_false, if_true, List.mem_append, List.mem_cons,
        List.not_mem_nil, or_false] at h
      · exact h.symm
      · exact h
    rcases this with rfl | h
    · exact ⟨hst, Nat.le_refl _⟩
    · exact hk h

theorem turns_keeps {lo hi : Nat} {F : State → List State} (hF : Keeps lo hi F) (lazy : Bool) (n : Nat) :
    ∀ m, Keeps lo hi (turns lazy F n m)
  | 0 => upTo_keeps hF lazy n
  | m + 1 => Keeps.flatMap hF (turns_keeps hF lazy n m)

theorem repeated_keeps {lo hi : Nat} {F : State → List State} (hF : Keeps lo hi F) (q : Option Quant) :
    Keeps lo hi (repeated F q) := by
  cases q with
  | none => exact hF
  | some q => exact turns_keeps hF q.lazy _ _

theorem outcomes_keeps (S : Subject) (lo : Nat) : ∀ r g, Keeps lo S.hi (outcomes S r g)
  | .empty, g, st, hst, st', h => by
    simp only [outcomes, List.mem_singleton] at h
    subst h
    exact ⟨hst, Nat.le_refl _⟩
  | .atom a q s, g, st, hst, st', h => by
    refine Keeps.flatMap (repeated_keeps ?_ q) (outcomes_keeps S lo s g) st hst st' h
    intro st hst st' h
    simp only at h
    split at h
    · rename_i j hj
      simp only [List.mem_singleton] at h
      subst h
      have hg := Atom.grows S a _ _ hj
      have := hg.2 hst.2.1
      exact ⟨⟨Nat.le_trans hst.1 hg.1, this, hst.2.2⟩, hg.1⟩
    · cases h
  | .group true b q s, g, st, hst, st', h => by
    refine Keeps.flatMap (repeated_keeps ?_ q) (outcomes_keeps S lo s _) st hst st' h
    intro st hst st' h
    obtain ⟨s1, h1, rfl⟩ := List.mem_map.1 h
    have hk := outcomes_keeps S lo b (g + 1) st hst s1 h1
    refine ⟨⟨hk.1.1, hk.1.2.1, fun i x y hi => ?_⟩, hk.2⟩
    simp only [State.capture] at hi
    split at hi
    · cases hi
      exact ⟨hst.1, hk.2, hk.1.2.1⟩
    · exact hk.1.2.2 i x y hi
  | .group false b q s, g, st, hst, st', h =>
    Keeps.flatMap (repeated_keeps (outcomes_keeps S lo b g) q) (outcomes_keeps S lo s _) st hst st' h
  | .alt l r, g, st, hst, st', h => by
    simp only [outcomes, List.mem_append] at h
    rcases h with h | h
    · exact outcomes_keeps S lo l g st hst st' h
    · exact outcomes_keeps S lo r _ st hst st' h

/-! ### The preferred match -/

/-- There is a preferred match exactly where there is a match. -/
theorem best_none (S : Subject) (hhi : S.hi ≤ 65535) {r : Regex} (hok : r.ok) {i : Nat} (hi : i ≤ S.hi) :
    best S r i = none ↔ ∀ j, ¬ Lang S r i j := by
  unfold best
  rw [List.head?_eq_none_iff]
  constructor
  · intro h j hj
    obtain ⟨s, hs, _⟩ := (outcomes_shows S hhi r 0 hok ⟨i, fun _ => none⟩ hi j).2 hj
    rw [h] at hs
    cases hs
  · intro h
    refine List.eq_nil_iff_forall_not_mem.2 fun s hs => ?_
    exact h s.pos ((outcomes_shows S hhi r 0 hok ⟨i, fun _ => none⟩ hi s.pos).1 ⟨s, hs, rfl⟩)

theorem best_some (S : Subject) (hhi : S.hi ≤ 65535) {r : Regex} (hok : r.ok) {i : Nat} (hi : i ≤ S.hi) {st : State}
    (h : best S r i = some st) : Lang S r i st.pos ∧ Within i S.hi st := by
  have hm := List.mem_of_head? h
  refine ⟨(outcomes_shows S hhi r 0 hok ⟨i, fun _ => none⟩ hi st.pos).1 ⟨st, hm, rfl⟩, ?_⟩
  refine (outcomes_keeps S i r 0 ⟨i, fun _ => none⟩ ⟨Nat.le_refl _, hi, ?_⟩ st hm).1
  intro _ _ _ h
  cases h

end Verif.Re.Spec
