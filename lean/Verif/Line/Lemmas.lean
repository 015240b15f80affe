import Verif.Line.Model

/-! A line as a list of characters. -/
namespace Verif.Line

open Verif.Utf8 (codeLen)

/-- A complete character in UTF-8, by the pattern of its bits. -/
def IsChar (c : List Nat) : Prop :=
  ∃ b ts, c = b :: ts ∧ (∀ t ∈ ts, 128 ≤ t ∧ t < 192) ∧
    ((b < 128 ∧ ts.length = 0) ∨ (192 ≤ b ∧ b < 224 ∧ ts.length = 1) ∨ (224 ≤ b ∧ b < 240 ∧ ts.length = 2) ∨ (240 ≤ b ∧ b < 248 ∧ ts.length = 3))

theorem isTail_table : ∀ b, b < 256 → isTail b = decide (128 ≤ b ∧ b < 192) := by decide +kernel

theorem codeLen_table : ∀ b, b < 256 → codeLen b =
    if b < 128 then 1 else if b < 192 then 0 else if b < 224 then 2 else if b < 240 then 3 else if b < 248 then 4 else 0 := by decide +kernel

theorem IsChar.parts {c : List Nat} (h : IsChar c) :
    ∃ b ts, c = b :: ts ∧ isTail b = false ∧ (∀ t ∈ ts, isTail t = true) ∧ codeLen b = ts.length + 1 := by
  obtain ⟨b, ts, e, h1, h2⟩ := h
  have hb : b < 256 := by omega
  refine ⟨b, ts, e, ?_, ?_, ?_⟩
  · rw [isTail_table b hb]; exact decide_eq_false (by omega)
  · intro t ht
    have := h1 t ht
    rw [isTail_table t (by omega)]; exact decide_eq_true this
  · rw [codeLen_table b hb]
    rcases h2 with h | h | h | h
    · rw [if_pos h.1]; omega
    · rw [if_neg (by omega), if_neg (by omega), if_pos (by omega)]; omega
    · rw [if_neg (by omega), if_neg (by omega), if_neg (by omega), if_pos (by omega)]; omega
    · rw [if_neg (by omega), if_neg (by omega), if_neg (by omega), if_neg (by omega), if_pos (by omega)]; omega

/-- The place before character `n`. -/
def At (cs : List (List Nat)) (n : Nat) : Pos := ⟨n, (cs.take n).flatten.length⟩

variable {cs : List (List Nat)}

theorem IsChar.pos {c : List Nat} (h : IsChar c) : 0 < c.length := by
  obtain ⟨b, ts, rfl, _⟩ := h.parts; simp

theorem split_at (h : ∀ c ∈ cs, IsChar c) {n : Nat} (hn : n < cs.length) :
    ∃ b ts, cs[n]? = some (b :: ts) ∧ isTail b = false ∧ (∀ t ∈ ts, isTail t = true) ∧ codeLen b = ts.length + 1 ∧
      (cs.take (n + 1)).flatten = (cs.take n).flatten ++ b :: ts ∧ cs.drop n = (b :: ts) :: cs.drop (n + 1) := by
  obtain ⟨b, ts, e, h1, h2, h3⟩ := (h cs[n] (List.getElem_mem hn)).parts
  refine ⟨b, ts, by rw [List.getElem?_eq_getElem hn, e], h1, h2, h3, ?_, ?_⟩
  · rw [List.take_succ_eq_append_getElem hn, List.flatten_append, e]; simp
  · rw [List.drop_eq_getElem_cons hn, e]

theorem flat_split (n : Nat) : cs.flatten = (cs.take n).flatten ++ (cs.drop n).flatten := by
  rw [← List.flatten_append, List.take_append_drop]

theorem take_flat (n : Nat) : cs.flatten.take (At cs n).phys = (cs.take n).flatten := by
  simp only [At]
  conv => lhs; rw [flat_split (cs := cs) n]
  simp

theorem drop_flat (n : Nat) : cs.flatten.drop (At cs n).phys = (cs.drop n).flatten := by
  simp only [At]
  conv => lhs; rw [flat_split (cs := cs) n]
  simp

theorem At.le (n : Nat) : (At cs n).phys ≤ cs.flatten.length := by
  simp only [At]
  rw [flat_split (cs := cs) n, List.length_append]; omega

theorem At.mono {m n : Nat} (h : m ≤ n) : (At cs m).phys ≤ (At cs n).phys := by
  simp only [At]
  have : cs.take m = (cs.take n).take m := by rw [List.take_take]; congr 1; omega
  rw [this]
  conv => rhs; rw [flat_split (cs := cs.take n) m]
  rw [List.length_append]; omega

theorem At.all : (At cs cs.length).phys = cs.flatten.length := by simp [At]

theorem len_le (h : ∀ c ∈ cs, IsChar c) : cs.length ≤ cs.flatten.length := by
  induction cs with
  | nil => simp
  | cons c cs ih =>
    have := (h c (by simp)).pos
    have := ih (fun c hc => h c (List.mem_cons_of_mem _ hc))
    rw [List.flatten_cons, List.length_append, List.length_cons]; omega

theorem At.lt (h : ∀ c ∈ cs, IsChar c) {m n : Nat} (hmn : m < n) (hn : n ≤ cs.length) : (At cs m).phys < (At cs n).phys := by
  obtain ⟨b, ts, _, _, _, _, e, _⟩ := split_at h (n := m) (by omega)
  have := At.mono (cs := cs) (m := m + 1) (n := n) (by omega)
  simp only [At, e, List.length_append, List.length_cons] at *
  omega

theorem At.zero (h : ∀ c ∈ cs, IsChar c) {n : Nat} (hn : n ≤ cs.length) : (At cs n).phys = 0 ↔ n = 0 := by
  constructor
  · intro e
    by_cases h0 : n = 0
    · exact h0
    · have := At.lt h (m := 0) (n := n) (by omega) hn
      omega
  · rintro rfl; rfl

theorem At.full (h : ∀ c ∈ cs, IsChar c) {n : Nat} (hn : n ≤ cs.length) : (At cs n).phys = cs.flatten.length ↔ n = cs.length := by
  constructor
  · intro e
    by_cases h0 : n = cs.length
    · exact h0
    · have := At.lt h (m := n) (n := cs.length) (by omega) (Nat.le_refl _)
      rw [At.all] at this
      omega
  · rintro rfl; exact At.all

theorem get_app (a : List Nat) (b : Nat) (l : List Nat) : get (a ++ b :: l) a.length = .ok b := by simp [get]

theorem back_tails (a l : List Nat) (b : Nat) (hb : isTail b = false) : ∀ (ts rest : List Nat), (∀ t ∈ ts, isTail t = true) →
    ∀ k, k ≤ ts.length → back (a ++ b :: ts ++ rest) (a.length + 1 + k) = .ok a.length := by
  intro ts rest ht k
  induction k with
  | zero =>
    intro _
    rw [Nat.add_zero, back]
    by_cases h : a.length = 0
    · rw [if_pos h, h]
    · rw [if_neg h]
      have : get (a ++ b :: ts ++ rest) a.length = .ok b := by
        rw [List.append_assoc]; exact get_app a b (ts ++ rest)
      simp only [this, bind, Except.bind, hb]; rfl
  | succ k ih =>
    intro hk
    rw [show a.length + 1 + (k + 1) = (a.length + 1 + k) + 1 from rfl, back, if_neg (by omega)]
    obtain ⟨t, e⟩ : ∃ t, ts[k]? = some t := ⟨_, List.getElem?_eq_getElem (by omega)⟩
    have h1 : get (a ++ b :: ts ++ rest) (a.length + 1 + k) = .ok t := by
      have : (a ++ b :: ts ++ rest)[a.length + 1 + k]? = some t := by
        rw [List.append_assoc, List.getElem?_append_right (by omega), show a.length + 1 + k - a.length = k + 1 by omega]
        simp only [List.cons_append, List.getElem?_cons_succ]
        rw [List.getElem?_append_left (by omega)]; exact e
      simp only [get, this]
    simp only [h1, bind, Except.bind, ht t (List.mem_of_getElem? e), if_true]
    exact ih (by omega)

theorem dec_at (h : ∀ c ∈ cs, IsChar c) {n : Nat} (hn : n < cs.length) (hb : cs.length < 4294967296) :
    dec cs.flatten (At cs (n + 1)) = .ok (At cs n) := by
  obtain ⟨b, ts, _, h1, h2, _, e, _⟩ := split_at h hn
  have hl : cs.flatten = (cs.take n).flatten ++ b :: ts ++ (cs.drop (n + 1)).flatten := by
    rw [flat_split (cs := cs) (n + 1), e]
  have hp : (At cs (n + 1)).phys = (cs.take n).flatten.length + 1 + ts.length := by
    simp only [At, e, List.length_append, List.length_cons]; omega
  have := back_tails (cs.take n).flatten [] b h1 ts (cs.drop (n + 1)).flatten h2 ts.length (Nat.le_refl _)
  rw [← hl, ← hp] at this
  have hu : sub32 (n + 1) 1 = n := by unfold sub32; omega
  simp only [dec, this, bind, Except.bind]
  simp only [At, hu]

theorem inc_at (h : ∀ c ∈ cs, IsChar c) {n : Nat} (hn : n < cs.length) (hb : cs.length < 4294967296) :
    inc cs.flatten (At cs n) = At cs (n + 1) := by
  obtain ⟨b, ts, _, h1, h2, _, e, hd⟩ := split_at h hn
  have hdrop : cs.flatten.drop ((At cs n).phys + 1) = ts ++ (cs.drop (n + 1)).flatten := by
    rw [← List.drop_drop, drop_flat, hd]; simp
  have htw : (ts ++ (cs.drop (n + 1)).flatten).takeWhile isTail = ts := by
    rw [List.takeWhile_append_of_pos h2]
    have : (cs.drop (n + 1)).flatten.takeWhile isTail = [] := by
      by_cases hn' : n + 1 < cs.length
      · obtain ⟨b', ts', _, k1, _, _, _, kd⟩ := split_at h hn'
        rw [kd]; simp [k1]
      · rw [List.drop_eq_nil_of_le (by omega)]; rfl
    rw [this, List.append_nil]
  simp only [inc, hdrop, htw]
  simp only [At, e, List.length_append, List.length_cons, add32]
  congr 1
  · omega
  · omega

theorem decN_at (h : ∀ c ∈ cs, IsChar c) (hb : cs.length < 4294967296) : ∀ (k n : Nat), k ≤ n → n ≤ cs.length →
    decN cs.flatten k (At cs n) = .ok (At cs (n - k)) := by
  intro k
  induction k with
  | zero => intro n _ _; rfl
  | succ k ih =>
    intro n hk hn
    obtain ⟨n, rfl⟩ : ∃ m, n = m + 1 := ⟨n - 1, by omega⟩
    simp only [decN, dec_at h (n := n) (by omega) hb, bind, Except.bind]
    rw [ih n (by omega) (by omega)]
    congr 2
    omega

theorem decTo_at (h : ∀ c ∈ cs, IsChar c) (hb : cs.length < 4294967296) {n : Nat} (m : Nat) (hn : n ≤ cs.length) :
    decTo cs.flatten m (At cs n) = .ok (At cs (min n m)) := by
  simp only [decTo, show (At cs n).log = n from rfl]
  rw [decN_at h hb (n - m) n (by omega) hn]
  congr 2
  omega

theorem draw_flat : ∀ (cs : List (List Nat)), (∀ c ∈ cs, IsChar c) → ∀ (f n : Nat), cs.flatten.length ≤ f →
    draw f n cs.flatten = (min n cs.length, (cs.take n).flatten.length, n - cs.length) := by
  intro cs
  induction cs with
  | nil =>
    intro _ f n _
    cases f with
    | zero => simp [draw]
    | succ f => cases n <;> simp [draw]
  | cons c cs ih =>
    intro h f n hf
    obtain ⟨b, ts, rfl, h1, h2, h3⟩ := (h c (by simp)).parts
    have h' : ∀ c ∈ cs, IsChar c := fun c hc => h c (List.mem_cons_of_mem _ hc)
    simp only [List.flatten_cons, List.length_append, List.length_cons] at hf
    obtain ⟨f, rfl⟩ : ∃ f', f = f' + 1 := ⟨f - 1, by omega⟩
    cases n with
    | zero => simp [draw]
    | succ n =>
      have hnot : cs.flatten.takeWhile isTail = [] ∧ cs.flatten.dropWhile isTail = cs.flatten := by
        cases cs with
        | nil => simp
        | cons c' cs' =>
          obtain ⟨b', ts', rfl, k1, _⟩ := (h' c' (by simp)).parts
          simp [k1]
      have e1 : (ts ++ cs.flatten).takeWhile isTail = ts := by
        rw [List.takeWhile_append_of_pos h2, hnot.1, List.append_nil]
      have e2 : (ts ++ cs.flatten).dropWhile isTail = cs.flatten := by
        rw [List.dropWhile_append_of_pos h2, hnot.2]
      simp only [List.flatten_cons, List.cons_append, draw, e1, e2, ih h' f n (by omega), List.length_cons, List.take_succ_cons,
        List.length_append]
      congr 1
      · omega
      · congr 1
        · omega
        · omega

/-- The number of characters is the number of bytes which are not tails. -/
theorem count_chars : ∀ (cs : List (List Nat)), (∀ c ∈ cs, IsChar c) → cs.flatten.countP (fun b => !isTail b) = cs.length := by
  intro cs
  induction cs with
  | nil => intro _; rfl
  | cons c cs ih =>
    intro h
    obtain ⟨b, ts, rfl, h1, h2, h3⟩ := (h c (by simp)).parts
    have : ts.countP (fun b => !isTail b) = 0 := by
      rw [List.countP_eq_zero]; intro t ht; simp [h2 t ht]
    rw [List.flatten_cons, List.countP_append, ih (fun c hc => h c (List.mem_cons_of_mem _ hc))]
    simp [h1, this]; omega

/-- Bytes of a character so far. -/
theorem finished_tails (a : List Nat) (b : Nat) (hb : isTail b = false) (ts rest : List Nat) (ht : ∀ t ∈ ts, isTail t = true) :
    ∀ (k num : Nat), k ≤ ts.length → finished (a ++ b :: ts ++ rest) (a.length + k) num = .ok (decide (num + k + 1 ≥ codeLen b)) := by
  have hg : get (a ++ b :: ts ++ rest) a.length = .ok b := by
    rw [List.append_assoc]; exact get_app a b (ts ++ rest)
  intro k
  induction k with
  | zero =>
    intro num _
    rw [Nat.add_zero]
    cases ha : a.length with
    | zero =>
      rw [ha] at hg
      simp only [finished, hg, bind, Except.bind, Nat.add_zero]
    | succ p =>
      rw [ha] at hg
      simp only [finished, hg, bind, Except.bind, hb, Bool.false_eq_true, if_false, Nat.add_zero]
  | succ k ih =>
    intro num hk
    obtain ⟨t, e⟩ : ∃ t, ts[k]? = some t := ⟨_, List.getElem?_eq_getElem (by omega)⟩
    have h1 : get (a ++ b :: ts ++ rest) (a.length + k + 1) = .ok t := by
      have : (a ++ b :: ts ++ rest)[a.length + k + 1]? = some t := by
        rw [List.append_assoc, List.getElem?_append_right (by omega), show a.length + k + 1 - a.length = k + 1 by omega]
        simp only [List.cons_append, List.getElem?_cons_succ]
        rw [List.getElem?_append_left (by omega)]; exact e
      simp only [get, this]
    rw [show a.length + (k + 1) = (a.length + k) + 1 from rfl, finished]
    simp only [h1, bind, Except.bind, ht t (List.mem_of_getElem? e), if_true]
    rw [ih (num + 1) (by omega)]
    congr 2
    apply propext
    constructor <;> intro <;> omega

end Verif.Line
