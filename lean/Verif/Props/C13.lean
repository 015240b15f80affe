import Verif.Lexer.Keyword
/-! C13: keyword recognition is exact. -/
namespace Verif.Lexer

theorem strncmp_eq (s : List Nat) : ∀ k, (∀ c ∈ s, c ≠ 0) → strncmp s k = .eq → s <+: k := by
  induction s with
  | nil => intro k _ _; exact List.nil_prefix
  | cons c cs ih =>
    intro k hz h
    have hc : c ≠ 0 := hz c (by simp)
    cases k with
    | nil => simp [strncmp, hc] at h
    | cons d ds =>
      simp only [strncmp] at h
      split at h
      · cases h
      · split at h
        · cases h
        · have := ih ds (fun x hx => hz x (by simp [hx])) h
          rw [show c = d by omega]
          exact List.cons_prefix_cons.mpr ⟨rfl, this⟩

theorem hasMore_false (s k : List Nat) (hk : ∀ c ∈ k, c ≠ 0) (hp : s <+: k)
    (h : hasMore k s.length = false) : s = k := by
  obtain ⟨t, rfl⟩ := hp
  cases t with
  | nil => simp
  | cons d ds =>
    simp [hasMore] at h
    exact absurd h (hk d (by simp))

/-- What one comparison tells, for texts which are themselves in the table. -/
def stepDir (s k : List Nat) : Ordering :=
  match strncmp s k with
  | .eq => if hasMore k s.length then .lt else .eq
  | .lt => .lt
  | .gt => .gt

theorem table_sorted : ∀ j < keywords.length, ∀ m < keywords.length, 0 < j → 0 < m →
    stepDir ((keywords[j]?).getD []) ((keywords[m]?).getD []) = compare j m := by
  decide +kernel

theorem table_nonzero : ∀ k ∈ keywords, ∀ c ∈ k, c ≠ 0 := by decide +kernel
theorem table_length : keywords.length = 47 := by decide +kernel

theorem search_sound (s : List Nat) (hz : ∀ c ∈ s, c ≠ 0) : ∀ fuel low high, 0 < low → high < 47 →
    searchLoop s fuel low high ≠ 0 →
    keywords[searchLoop s fuel low high]? = some s ∧ low ≤ searchLoop s fuel low high := by
  intro fuel
  induction fuel with
  | zero => intro low high _ _ h; exact absurd rfl h
  | succ n ih =>
    intro low high hl hh h
    rw [searchLoop] at h ⊢
    by_cases hle : low ≤ high
    · rw [if_pos hle] at h ⊢
      simp only at h ⊢
      have hm : (low + high) / 2 < keywords.length := by rw [table_length]; omega
      have hb : ((low + high) / 2 + 255) % 256 = (low + high) / 2 - 1 := by omega
      cases hc : strncmp s ((keywords[(low + high) / 2]?).getD []) with
      | eq =>
        simp only [hc] at h ⊢
        cases hmore : hasMore ((keywords[(low + high) / 2]?).getD []) s.length with
        | true =>
          simp only [hmore, if_true] at h ⊢
          exact ih _ _ hl (by omega) h
        | false =>
          simp only [hmore, Bool.false_eq_true, if_false] at h ⊢
          rw [List.getElem?_eq_getElem hm] at hc hmore ⊢
          simp only [Option.getD_some] at hc hmore
          have hp := strncmp_eq s _ hz hc
          have := hasMore_false s _ (table_nonzero _ (List.getElem_mem hm)) hp hmore
          exact ⟨by rw [this], by omega⟩
      | lt =>
        simp only [hc] at h ⊢
        exact ih _ _ hl (by omega) h
      | gt =>
        simp only [hc] at h ⊢
        have hb' : ((low + high) / 2 + 1) % 256 = (low + high) / 2 + 1 := by omega
        rw [hb'] at h ⊢
        have := ih ((low + high) / 2 + 1) high (by omega) hh h
        exact ⟨this.1, by omega⟩
    · rw [if_neg hle] at h; exact absurd rfl h

theorem search_complete (j : Nat) (hj0 : 0 < j) (hj : j < 47) : ∀ fuel low high, 0 < low → high < 47 →
    low ≤ j → j ≤ high → high - low < fuel →
    searchLoop ((keywords[j]?).getD []) fuel low high = j := by
  intro fuel
  induction fuel with
  | zero => intro low high _ _ _ _ h; omega
  | succ n ih =>
    intro low high hl hh h1 h2 hf
    rw [searchLoop, if_pos (by omega)]
    simp only
    have hs := table_sorted j (by rw [table_length]; omega) ((low + high) / 2)
      (by rw [table_length]; omega) hj0 (by omega)
    unfold stepDir at hs
    have hb : ((low + high) / 2 + 255) % 256 = (low + high) / 2 - 1 := by omega
    have hb' : ((low + high) / 2 + 1) % 256 = (low + high) / 2 + 1 := by omega
    cases hc : strncmp ((keywords[j]?).getD []) ((keywords[(low + high) / 2]?).getD []) with
    | eq =>
      simp only [hc] at hs ⊢
      cases hmore : hasMore ((keywords[(low + high) / 2]?).getD []) ((keywords[j]?).getD []).length with
      | true =>
        simp only [hmore, if_true] at hs ⊢
        have := Nat.compare_eq_lt.mp hs.symm
        rw [hb]
        exact ih _ _ hl (by omega) h1 (by omega) (by omega)
      | false =>
        simp only [hmore] at hs ⊢
        have := Nat.compare_eq_eq.mp hs.symm
        simp; omega
    | lt =>
      simp only [hc] at hs ⊢
      have := Nat.compare_eq_lt.mp hs.symm
      rw [hb]
      exact ih _ _ hl (by omega) h1 (by omega) (by omega)
    | gt =>
      simp only [hc] at hs ⊢
      have := Nat.compare_eq_gt.mp hs.symm
      rw [hb']
      exact ih _ _ (by omega) hh (by omega) h2 (by omega)

/-- The keywords of the language with their token codes, written independently of the lexer's table
(core/kos_lexer.h:42-90 `KOS_KEYWORD_TYPE`). -/
def Spec.keywordCodes : List (String × Nat) := [
  ("assert", 3), ("async", 4), ("break", 5), ("case", 6), ("catch", 7), ("class", 8), ("const", 9),
  ("constructor", 10), ("continue", 11), ("default", 12), ("defer", 13), ("delete", 14), ("do", 15),
  ("else", 16), ("extends", 17), ("fallthrough", 18), ("false", 19), ("for", 20), ("fun", 21),
  ("get", 22), ("if", 23), ("import", 24), ("in", 25), ("instanceof", 26), ("loop", 27), ("match", 28),
  ("propertyof", 29), ("public", 30), ("repeat", 31), ("return", 32), ("set", 33), ("static", 34),
  ("super", 35), ("switch", 36), ("this", 37), ("throw", 38), ("true", 39), ("try", 40), ("typeof", 41),
  ("var", 42), ("void", 43), ("while", 44), ("with", 45), ("yield", 46), ("_", 1), ("__line__", 2)]

theorem codes_in_table : ∀ p ∈ Spec.keywordCodes, 0 < p.2 ∧ p.2 < 47 ∧ keywords[p.2]? = some (bytes p.1) := by
  decide +kernel
theorem table_in_codes : ∀ i < 47, 0 < i → ∃ p ∈ Spec.keywordCodes, p.2 = i := by decide +kernel

/-- **C13.** For every identifier text, the lookup reports code `k ≠ 0` exactly when the text is the
keyword with that code. -/
theorem C13_keyword_exact (s : List Nat) (hz : ∀ c ∈ s, c ≠ 0) (k : Nat) (hk : k ≠ 0) :
    findKeyword s = k ↔ ∃ p ∈ Spec.keywordCodes, p.2 = k ∧ s = bytes p.1 := by
  unfold findKeyword
  rw [table_length]
  constructor
  · rintro rfl
    obtain ⟨hg, hlow⟩ := search_sound s hz 64 1 46 (by omega) (by omega) hk
    have hlt : searchLoop s 64 1 46 < 47 := by
      have := (List.getElem?_eq_some_iff.mp hg).1
      rwa [table_length] at this
    obtain ⟨p, hp, he⟩ := table_in_codes _ hlt (by omega)
    refine ⟨p, hp, he, ?_⟩
    have := (codes_in_table p hp).2.2
    rw [he, hg] at this
    exact Option.some.inj this
  · rintro ⟨p, hp, rfl, rfl⟩
    obtain ⟨h0, h47, hg⟩ := codes_in_table p hp
    have := search_complete p.2 h0 h47 64 1 46 (by omega) (by omega) (by omega) (by omega) (by omega)
    rw [hg] at this
    exact this

/-- Corollary: an identifier which is not a keyword, e.g. any extension or proper prefix, yields 0. -/
theorem C13_not_keyword (s : List Nat) (hz : ∀ c ∈ s, c ≠ 0)
    (h : ∀ p ∈ Spec.keywordCodes, s ≠ bytes p.1) : findKeyword s = 0 := by
  by_cases hk : findKeyword s = 0
  · exact hk
  · obtain ⟨p, hp, _, he⟩ := (C13_keyword_exact s hz _ hk).mp rfl
    exact absurd he (h p hp)

example : findKeyword (bytes "constructor") = 10 ∧ findKeyword (bytes "cons") = 0 ∧
    findKeyword (bytes "constr") = 0 ∧ findKeyword (bytes "yields") = 0 ∧ findKeyword (bytes "int") = 0 := by
  decide +kernel

end Verif.Lexer
