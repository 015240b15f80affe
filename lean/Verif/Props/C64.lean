import Verif.Lib.Text

/-
C64: strip removes what it should from the ends of a string, and nothing else.
C65: split without a separator gives the words of a string.
-/
namespace Verif.Text

/-- Specification: a string without leading characters of a set. -/
def unlead (set : List Nat) (s : List Nat) : List Nat := s.dropWhile (set.contains ·)
/-- Specification: a string without trailing characters of a set. -/
def untrail (set : List Nat) (s : List Nat) : List Nat := (s.reverse.dropWhile (set.contains ·)).reverse

/-- The full claim for `lstrip`, `rstrip` and `strip`.  The characters of the set have at most the given number of bytes. -/
def C64_full : Prop := ∀ (s : List Nat) (chars : Chars), (∀ c ∈ chars.codes, c < 256 ^ chars.bytes) →
  lstrip s chars = unlead chars.codes s ∧ rstrip s chars = untrail chars.codes s ∧ strip s chars = untrail chars.codes (unlead chars.codes s)

/-- Characters which `scan` passes over. -/
def passed (set : Chars) (incl : Bool) (c : Nat) : Bool := !(decide (c < 256 ^ set.bytes) && (set.codes.contains c == incl))

theorem first_stops (set : Chars) (incl : Bool) (l : List Nat) (i : Nat) :
    first (stops set incl) l i = if l.dropWhile (passed set incl) = [] then -1 else ((i + (l.takeWhile (passed set incl)).length : Nat) : Int) := by
  induction l generalizing i with
  | nil => rfl
  | cons c cs ih =>
    unfold first
    by_cases h : stops set incl (c :: cs) = true
    · rw [if_pos h]
      have hp : passed set incl c = false := by simp only [stops] at h; simp only [passed, h, Bool.not_true]
      rw [List.dropWhile_cons, List.takeWhile_cons, hp]
      simp
    · rw [if_neg h, ih]
      have hp : passed set incl c = true := by
        have h' : stops set incl (c :: cs) = false := by simpa using h
        simp only [stops] at h'; simp only [passed, h', Bool.not_false]
      rw [List.dropWhile_cons, List.takeWhile_cons, hp]
      simp only [if_true, List.length_cons]
      rw [show i + 1 + (cs.takeWhile (passed set incl)).length = i + ((cs.takeWhile (passed set incl)).length + 1) by omega]

theorem drop_takeWhile (p : Nat → Bool) (l : List Nat) : l.drop (l.takeWhile p).length = l.dropWhile p := by
  have h : l.takeWhile p ++ l.dropWhile p = l := List.takeWhile_append_dropWhile
  conv => lhs; rw [← h]
  have hl : (List.takeWhile p (List.takeWhile p l ++ List.dropWhile p l)).length = (List.takeWhile p l).length := by rw [h]
  rw [hl, List.drop_left]

theorem dropWhile_nil (p : Nat → Bool) (l : List Nat) (h : l.dropWhile p = []) : ∀ x ∈ l, p x = true := by
  induction l with
  | nil => simp
  | cons c cs ih =>
    rw [List.dropWhile_cons] at h
    by_cases hc : p c = true
    · rw [if_pos hc] at h
      intro x hx
      rcases List.mem_cons.mp hx with rfl | hx
      · exact hc
      · exact ih h x hx
    · rw [if_neg hc] at h; cases h

theorem takeWhile_all (p : Nat → Bool) (l : List Nat) : ∀ x ∈ l.takeWhile p, p x = true := by
  induction l with
  | nil => simp
  | cons c cs ih =>
    rw [List.takeWhile_cons]
    by_cases hc : p c = true
    · rw [if_pos hc]
      intro x hx
      rcases List.mem_cons.mp hx with rfl | hx
      · exact hc
      · exact ih x hx
    · rw [if_neg hc]; simp

/-- What `lstrip` and `rstrip` do: characters wider than those of the set are removed too. -/
theorem C64_exact (s : List Nat) (chars : Chars) (hc : chars.codes ≠ []) :
    lstrip s chars = s.dropWhile (passed chars false) ∧ rstrip s chars = (s.reverse.dropWhile (passed chars false)).reverse ∧
    strip s chars = ((s.dropWhile (passed chars false)).reverse.dropWhile (passed chars false)).reverse := by
  have hr : ∀ t : List Nat, rstrip t chars = (t.reverse.dropWhile (passed chars false)).reverse := by
    intro t
    unfold rstrip rscan
    rw [if_neg hc]
    simp only
    rw [first_stops]
    by_cases h : t.reverse.dropWhile (passed chars false) = []
    · simp only [if_true, h]
      rfl
    · rw [if_neg h, if_neg (by omega)]
      have hlen : (t.reverse.takeWhile (passed chars false)).length ≤ t.length := by
        rw [← List.length_reverse (as := t)]
        exact (List.takeWhile_prefix _).length_le
      rw [← drop_takeWhile, List.drop_reverse, List.reverse_reverse]
      unfold slice
      simp only [Int.toNat_zero, List.drop_zero]
      congr 1
      omega
  have hl : ∀ t : List Nat, lstrip t chars = t.dropWhile (passed chars false) := by
    intro t
    unfold lstrip scan
    rw [if_neg hc, List.drop_zero, first_stops]
    by_cases h : t.dropWhile (passed chars false) = []
    · simp [h]
    · simp only [if_neg h, Nat.zero_add]
      rw [if_pos (by omega)]
      unfold slice
      simp only [Int.toNat_natCast, List.take_length]
      exact drop_takeWhile _ t
  refine ⟨hl s, hr s, ?_⟩
  -- `strip`: both searches are in the whole string
  have e1 := hl s
  have e2 := hr s
  unfold strip
  unfold lstrip at e1
  unfold rstrip at e2
  simp only at e1 e2 ⊢
  by_cases h : s.dropWhile (passed chars false) = []
  · have hp : scan s chars 0 false = -1 := by
      unfold scan
      rw [if_neg hc, List.drop_zero, first_stops, if_pos h]
    rw [hp, h]
    rfl
  · have hp : scan s chars 0 false = ((s.takeWhile (passed chars false)).length : Nat) := by
      unfold scan
      rw [if_neg hc, List.drop_zero, first_stops, if_neg h, Nat.zero_add]
    rw [if_pos (by rw [hp]; omega)]
    have hsl : slice s (scan s chars 0 false) (rscan s chars false + 1) = (slice s 0 (rscan s chars false + 1)).drop (s.takeWhile (passed chars false)).length := by
      rw [hp]
      simp [slice]
    rw [hsl, e2]
    -- dropping at the end and at the start commute
    obtain ⟨a, b, hs, ha⟩ : ∃ a b, s = a ++ b ∧ a = s.takeWhile (passed chars false) ∧ b = s.dropWhile (passed chars false) :=
      ⟨_, _, List.takeWhile_append_dropWhile.symm, rfl, rfl⟩
    rw [← ha.1, ← ha.2]
    conv => lhs; rw [hs]
    rw [List.reverse_append]
    have hb : b ≠ [] := by rw [ha.2]; exact h
    have hx : ∃ x ∈ b, passed chars false x = false := by
      cases b with
      | nil => exact absurd rfl hb
      | cons x b' =>
        refine ⟨x, by simp, ?_⟩
        have := List.head_dropWhile_not (passed chars false) h
        have h2 : (s.dropWhile (passed chars false)).head h = x := by
          simp only [← ha.2, List.head_cons]
        rw [h2] at this
        simpa using this
    rw [List.dropWhile_append]
    have hne : (b.reverse.dropWhile (passed chars false)).isEmpty = false := by
      obtain ⟨x, hx, hx'⟩ := hx
      rw [Bool.eq_false_iff]
      intro hem
      rw [List.isEmpty_iff] at hem
      have := dropWhile_nil _ _ hem x (by simpa using hx)
      rw [hx'] at this
      cases this
    rw [hne]
    simp [List.reverse_append]

theorem passed_eq (chars : Chars) (c : Nat) (h : c < 256 ^ chars.bytes) : passed chars false c = chars.codes.contains c := by
  simp only [passed, h, decide_true, Bool.true_and]
  cases chars.codes.contains c <;> rfl

theorem dropWhile_congr (p q : Nat → Bool) (l : List Nat) (h : ∀ c ∈ l, p c = q c) : l.dropWhile p = l.dropWhile q := by
  induction l with
  | nil => rfl
  | cons c cs ih => rw [List.dropWhile_cons, List.dropWhile_cons, h c (by simp), ih fun x hx => h x (List.mem_cons_of_mem _ hx)]

/-- **C64**, when no character of the string is wider than those of the set.  What is missing: strings with such characters (`C64_violated`). -/
theorem C64_partial (s : List Nat) (chars : Chars) (h : ∀ c ∈ s, c < 256 ^ chars.bytes) :
    lstrip s chars = unlead chars.codes s ∧ rstrip s chars = untrail chars.codes s ∧ strip s chars = untrail chars.codes (unlead chars.codes s) := by
  by_cases hc : chars.codes = []
  · have hun : ∀ t, unlead chars.codes t = t := fun t => by rw [hc]; cases t <;> simp [unlead]
    have hut : ∀ t, untrail chars.codes t = t := fun t => by
      rw [hc]
      unfold untrail
      have : ∀ l : List Nat, l.dropWhile (([] : List Nat).contains ·) = l := fun l => by cases l <;> simp
      rw [this, List.reverse_reverse]
    rw [hun, hut]
    unfold lstrip rstrip strip scan rscan
    simp only [hc, if_true, Nat.zero_le]
    refine ⟨?_, ?_, ?_⟩ <;> simp [slice]
  · obtain ⟨h1, h2, h3⟩ := C64_exact s chars hc
    have e1 : s.dropWhile (passed chars false) = unlead chars.codes s := dropWhile_congr _ _ _ fun c hm => passed_eq chars c (h c hm)
    refine ⟨h1.trans e1, ?_, ?_⟩
    · rw [h2, dropWhile_congr _ (chars.codes.contains ·) _ fun c hm => passed_eq chars c (h c (List.mem_reverse.mp hm))]
      rfl
    · rw [h3, e1, dropWhile_congr _ (chars.codes.contains ·) _ fun c hm => passed_eq chars c (h c ?_)]
      · rfl
      · exact (List.dropWhile_sublist _).subset (List.mem_reverse.mp hm)

/-- An emoji is taken for whitespace: U+1F600 does not fit in the two bytes of the characters of `whitespace`. -/
theorem C64_violated : ¬ C64_full := fun h => by
  have := (h [0x1F600] whitespace (by decide)).1
  revert this
  decide

example : strip [32, 9, 97, 32, 98, 10] = [97, 32, 98] ∧ lstrip [32, 9, 97, 32, 98, 10] = [97, 32, 98, 10] ∧ rstrip [32, 9, 97, 32, 98, 10] = [32, 9, 97, 32, 98] ∧
    strip [32, 10] = [] ∧ strip [97, 98, 97] ⟨[97], 1⟩ = [98] := by decide

/-! ### Words -/

/-- Whitespace. -/
def Space (c : Nat) : Prop := (9 ≤ c ∧ c ≤ 13) ∨ c = 32 ∨ c = 0xA0 ∨ c = 0x2028 ∨ c = 0x2029 ∨ c = 0xFEFF

instance (c : Nat) : Decidable (Space c) := inferInstanceAs (Decidable ((9 ≤ c ∧ c ≤ 13) ∨ c = 32 ∨ c = 0xA0 ∨ c = 0x2028 ∨ c = 0x2029 ∨ c = 0xFEFF))

theorem whitespace_iff (c : Nat) : c ∈ whitespace.codes ↔ Space c := by
  simp only [whitespace, Space, List.mem_cons, List.not_mem_nil, or_false]
  omega

/-- Specification: words of a string, with at most `n` splits; after that the rest is one piece. -/
inductive Words : Nat → List Nat → List (List Nat) → Prop
  | none (n s) : (∀ c ∈ s, Space c) → Words n s []
  | rest (g c r) : (∀ x ∈ g, Space x) → ¬ Space c → Words 0 (g ++ c :: r) [c :: r]
  | word (n g p r ps) : (∀ c ∈ g, Space c) → p ≠ [] → (∀ c ∈ p, ¬ Space c) → (∀ c, r.head? = some c → Space c) → Words n r ps → Words (n + 1) (g ++ p ++ r) (p :: ps)

/-- The full claim for strings within the limit: words have no whitespace and are not empty, no other character is lost, and neighbours are
in the same word. -/
def C65_full : Prop := ∀ (s : List Nat), s.length ≤ 65535 → ∃ ps, split s none = some ps ∧ (∀ p ∈ ps, p ≠ [] ∧ ∀ c ∈ p, ¬ Space c) ∧
  ps.flatten = s.filter (fun c => decide (¬ Space c)) ∧ Words 65535 s ps

theorem scan_space (s : List Nat) (pos : Nat) (incl : Bool) (hs : ∀ c ∈ s, c < 65536) :
    (scan s whitespace pos incl = -1 ∧ ∀ c ∈ s.drop pos, ¬ (Space c ↔ incl = true)) ∨
    ∃ a c r, s.drop pos = a ++ c :: r ∧ (∀ x ∈ a, ¬ (Space x ↔ incl = true)) ∧ (Space c ↔ incl = true) ∧ scan s whitespace pos incl = ((pos + a.length : Nat) : Int) := by
  have hp : ∀ c ∈ s.drop pos, passed whitespace incl c = true ↔ ¬ (Space c ↔ incl = true) := by
    intro c hc
    have h1 : c < 256 ^ whitespace.bytes := hs c (List.mem_of_mem_drop hc)
    unfold passed
    simp only [h1, decide_true, Bool.true_and, Bool.not_eq_true', beq_eq_false_iff_ne, ne_eq]
    rw [Bool.eq_iff_iff, List.contains_iff_mem, whitespace_iff]
  unfold scan
  rw [if_neg (by decide), first_stops]
  have hsplit : (s.drop pos).takeWhile (passed whitespace incl) ++ (s.drop pos).dropWhile (passed whitespace incl) = s.drop pos := List.takeWhile_append_dropWhile
  have hta : ∀ x ∈ (s.drop pos).takeWhile (passed whitespace incl), ¬ (Space x ↔ incl = true) := by
    intro x hx
    have hm : x ∈ s.drop pos := (List.takeWhile_prefix _).subset hx
    rw [← hp x hm]
    exact takeWhile_all _ _ x hx
  by_cases h : (s.drop pos).dropWhile (passed whitespace incl) = []
  · rw [if_pos h]
    refine .inl ⟨rfl, ?_⟩
    rw [h, List.append_nil] at hsplit
    rw [hsplit] at hta
    exact hta
  · rw [if_neg h]
    have hh := List.head_dropWhile_not (passed whitespace incl) h
    cases hd : (s.drop pos).dropWhile (passed whitespace incl) with
    | nil => exact absurd hd h
    | cons c r =>
      refine .inr ⟨_, c, r, by rw [← hd, hsplit], hta, ?_, rfl⟩
      simp only [hd, List.head_cons] at hh
      have hm : c ∈ s.drop pos := by rw [← hsplit, hd]; simp
      have := (not_congr (hp c hm)).mp (by rw [hh]; simp)
      exact Decidable.not_not.mp this

theorem slice_end' (s : List Nat) (pos : Nat) : slice s pos s.length = s.drop pos := by simp [slice]

theorem slice_to' (s : List Nat) (pos q : Nat) : slice s pos ((pos + q : Nat) : Int) = (s.drop pos).take q := by
  simp only [slice, Int.toNat_natCast]
  rw [List.drop_take, Nat.add_sub_cancel_left]

theorem wordLoop_spec (s : List Nat) (hs : ∀ c ∈ s, c < 65536) (n pos : Nat) (c : Nat) (r : List Nat) (hd : s.drop pos = c :: r) (hc : ¬ Space c)
    (g : List Nat) (hg : ∀ x ∈ g, Space x) : Words n (g ++ s.drop pos) (wordLoop s n pos) := by
  induction n generalizing pos c r g with
  | zero => rw [wordLoop, slice_end', hd]; exact .rest g c r hg hc
  | succ n ih =>
    rw [wordLoop]
    rcases scan_space s pos true hs with ⟨e, h⟩ | ⟨a, x, t, hat, ha, hx, e⟩
    · simp only [e, if_true, slice_end']
      have := Words.word n g (s.drop pos) [] [] hg (by rw [hd]; simp) (fun y hy => by simpa using h y hy) (by simp) (.none n [] (by simp))
      simpa using this
    · simp only [e]
      rw [if_neg (by omega), Int.toNat_natCast, slice_to']
      have hta : (s.drop pos).take a.length = a := by rw [hat]; simp
      rw [hta]
      have ha0 : a ≠ [] := by
        intro h0
        rw [h0, hd] at hat
        simp only [List.nil_append, List.cons.injEq] at hat
        rw [hat.1] at hc
        exact hc (by simpa using hx)
      have hxt : s.drop (pos + a.length) = x :: t := by rw [← List.drop_drop, hat]; simp
      have hxs : Space x := by simpa using hx
      have haw : ∀ y ∈ a, ¬ Space y := fun y hy => by simpa using ha y hy
      rcases scan_space s (pos + a.length) false hs with ⟨e', h'⟩ | ⟨b, y, u, hbu, hb, hy, e'⟩
      · rw [if_pos e']
        rw [hat]
        have := Words.word n g a (x :: t) [] hg ha0 haw (by simp [hxs]) (.none n _ (fun z hz => by
          have := h' z (by rw [hxt]; exact hz)
          simpa using this))
        simpa using this
      · rw [e', if_neg (by omega), Int.toNat_natCast]
        have hyu : s.drop (pos + a.length + b.length) = y :: u := by rw [← List.drop_drop, hbu]; simp
        have hys : ¬ Space y := by simpa using hy
        have hbs : ∀ z ∈ b, Space z := fun z hz => by simpa using hb z hz
        have hsub := ih (pos + a.length + b.length) y u hyu hys b hbs
        rw [hyu, ← hbu, hxt] at hsub
        rw [hat]
        have := Words.word n g a (x :: t) _ hg ha0 haw (by simp [hxs]) hsub
        simpa using this

/-- **C65** for every limit, if no character needs more than two bytes.  What is missing: strings with such characters (`C65_violated`). -/
theorem C65_limit_partial (s : List Nat) (hs : ∀ c ∈ s, c < 65536) (maxSplit : Int) (h0 : maxSplit ≠ 0) :
    ∃ ps, split s none maxSplit = some ps ∧ Words (parts maxSplit - 1) s ps := by
  unfold split
  rw [if_neg (by simp), if_neg h0]
  simp only
  rcases scan_space s 0 false hs with ⟨e, h⟩ | ⟨a, c, r, hd, ha, hc, e⟩
  · rw [if_pos e]
    exact ⟨[], rfl, .none _ _ fun c hc => by simpa using h c (by simpa using hc)⟩
  · rw [e, if_neg (by omega), Nat.zero_add, Int.toNat_natCast]
    refine ⟨_, rfl, ?_⟩
    rw [List.drop_zero] at hd
    have hcr : s.drop a.length = c :: r := by rw [hd]; simp
    have := wordLoop_spec s hs (parts maxSplit - 1) a.length c r hcr (by simpa using hc) a (fun x hx => by simpa using ha x hx)
    rw [hcr, ← hd] at this
    exact this

theorem Words.all {n : Nat} {s : List Nat} {ps : List (List Nat)} (h : Words n s ps) : ps.length ≤ n + 1 ∧ (∀ p ∈ ps, p ≠ []) ∧ (∀ p ∈ ps.dropLast, ∀ c ∈ p, ¬ Space c) ∧
    (s.length ≤ n → (∀ p ∈ ps, ∀ c ∈ p, ¬ Space c) ∧ ps.flatten = s.filter (fun c => decide (¬ Space c))) := by
  have hf : ∀ l : List Nat, (∀ c ∈ l, Space c) → l.filter (fun c => decide (¬ Space c)) = [] := fun l hl => by
    rw [List.filter_eq_nil_iff]; intro c hc; simpa using hl c hc
  induction h with
  | none n s h => exact ⟨by simp, by simp, by simp, fun _ => ⟨by simp, by rw [hf s h]; rfl⟩⟩
  | rest g c r hg hc => exact ⟨by simp, by simp, by simp, fun h => by simp at h⟩
  | word n g p r ps hg hp0 hp hr h ih =>
    obtain ⟨h1, h2, h3, h4⟩ := ih
    refine ⟨by simpa using h1, ?_, ?_, ?_⟩
    · intro x hx
      rcases List.mem_cons.mp hx with rfl | hx
      · exact hp0
      · exact h2 x hx
    · intro x hx
      cases ps with
      | nil => simp at hx
      | cons q l =>
        rw [List.dropLast_cons_of_ne_nil (by simp)] at hx
        rcases List.mem_cons.mp hx with rfl | hx
        · exact hp
        · exact h3 x hx
    · intro hl
      have : 0 < p.length := by
        rcases Nat.eq_zero_or_pos p.length with h | h
        · exact absurd (List.length_eq_zero_iff.mp h) hp0
        · exact h
      simp only [List.length_append] at hl
      obtain ⟨h5, h6⟩ := h4 (by omega)
      refine ⟨fun x hx => ?_, ?_⟩
      · rcases List.mem_cons.mp hx with rfl | hx
        · exact hp
        · exact h5 x hx
      · rw [List.flatten_cons, h6, List.filter_append, List.filter_append, hf g hg, List.nil_append]
        congr 1
        rw [eq_comm, List.filter_eq_self]
        intro c hc
        simpa using hp c hc

/-- **C65**, if no character needs more than two bytes. -/
theorem C65_partial (s : List Nat) (hl : s.length ≤ 65535) (hs : ∀ c ∈ s, c < 65536) : ∃ ps, split s none = some ps ∧ (∀ p ∈ ps, p ≠ [] ∧ ∀ c ∈ p, ¬ Space c) ∧
    ps.flatten = s.filter (fun c => decide (¬ Space c)) ∧ Words 65535 s ps := by
  obtain ⟨ps, e, h⟩ := C65_limit_partial s hs (-1) (by omega)
  obtain ⟨_, h2, _, h4⟩ := h.all
  obtain ⟨h5, h6⟩ := h4 hl
  exact ⟨ps, e, fun p hp => ⟨h2 p hp, h5 p hp⟩, h6, h⟩

/-- An emoji between two words is lost. -/
theorem C65_violated : split [97, 32, 0x1F600, 32, 98] none = some [[97], [98]] ∧ ¬ C65_full := by
  have hsp : split [97, 32, 0x1F600, 32, 98] none = some [[97], [98]] := by decide +kernel
  refine ⟨hsp, fun h => ?_⟩
  obtain ⟨ps, e, _, h2, _⟩ := h [97, 32, 0x1F600, 32, 98] (by decide)
  rw [hsp] at e
  injection e with e
  subst e
  revert h2
  decide

example : split [32, 97, 98, 9, 10, 99, 32] none = some [[97, 98], [99]] ∧ split [32, 97, 98, 9, 10, 99, 32] none 1 = some [[97, 98, 9, 10, 99, 32]] ∧
    split [32, 32] none = some [] := by decide +kernel

end Verif.Text
