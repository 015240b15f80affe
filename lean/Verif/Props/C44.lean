import Verif.Lib.Text
import Verif.Props.C28

/-
C44: split and join are inverse.
-/
namespace Verif.Text

/-- Specification: pieces with the separator in between. -/
def glue (sep : List Nat) : List (List Nat) → List Nat
  | [] => []
  | [p] => p
  | p :: q :: l => p ++ sep ++ glue sep (q :: l)

/-- Specification: what splitting `n` times at the leftmost separator gives. -/
inductive Splits (sep : List Nat) : Nat → List Nat → List (List Nat) → Prop
  | stop (s) : Splits sep 0 s [s]
  | last (n s) : ¬ sep <:+: s → Splits sep (n + 1) s [s]
  | more (n p r ps) : ¬ sep <:+: (p ++ sep).dropLast → Splits sep n r ps → Splits sep (n + 1) (p ++ sep ++ r) (p :: ps)

/-- Specification: the characters which end a line.  Next line (U+0085), line separator (U+2028) and paragraph separator (U+2029) are among
them, and so are the control characters from line feed to carriage return and from file separator to record separator. -/
def LineEnd (c : Nat) : Prop := (10 ≤ c ∧ c ≤ 13) ∨ (28 ≤ c ∧ c ≤ 30) ∨ c = 0x85 ∨ c = 0x2028 ∨ c = 0x2029

/-- Specification: a line and its end.  The last line may have none. -/
inductive Lines : List Nat → List (List Nat × List Nat) → Prop
  | none : Lines [] []
  | last (s) : s ≠ [] → (∀ c ∈ s, ¬ LineEnd c) → Lines s [(s, [])]
  | crlf (s r ls) : (∀ c ∈ s, ¬ LineEnd c) → Lines r ls → Lines (s ++ [13, 10] ++ r) ((s, [13, 10]) :: ls)
  | one (s c r ls) : (∀ c ∈ s, ¬ LineEnd c) → LineEnd c → (c = 13 → r.head? ≠ some 10) → Lines r ls → Lines (s ++ [c] ++ r) ((s, [c]) :: ls)

/-- The full claim, for strings within the limit. -/
def C44_full : Prop := ∀ (s : List Nat), s.length ≤ 65535 →
  (∀ sep, sep ≠ [] → ∃ ps, split s (some sep) = some ps ∧ join sep ps = some s ∧ ∀ p ∈ ps, ¬ sep <:+: p) ∧
  ∃ ls, splitLines s true = some ls ∧ ls.flatten = s

/-! ### Searching -/

theorem first_cases (p : List Nat → Bool) (l : List Nat) (i : Nat) : (first p l i = -1 ∧ ∀ q, q < l.length → p (l.drop q) = false) ∨
    ∃ q, q < l.length ∧ first p l i = ((i + q : Nat) : Int) ∧ p (l.drop q) = true ∧ ∀ q', q' < q → p (l.drop q') = false := by
  induction l generalizing i with
  | nil => exact .inl ⟨rfl, fun q hq => absurd hq (Nat.not_lt_zero q)⟩
  | cons c cs ih =>
    unfold first
    by_cases h : p (c :: cs) = true
    · rw [if_pos h]
      exact .inr ⟨0, Nat.zero_lt_succ _, rfl, h, fun q' h' => absurd h' (Nat.not_lt_zero q')⟩
    · rw [if_neg h]
      have hf : p (c :: cs) = false := by simpa using h
      rcases ih (i + 1) with ⟨e, hn⟩ | ⟨q, hq, e, hp, hb⟩
      · refine .inl ⟨e, fun q hq => ?_⟩
        cases q with
        | zero => exact hf
        | succ q => exact hn q (by simpa using hq)
      · refine .inr ⟨q + 1, by simpa using hq, by rw [e]; congr 1; omega, hp, fun q' h' => ?_⟩
        cases q' with
        | zero => exact hf
        | succ q' => exact hb q' (by omega)

/-- The result of a search by its meaning. -/
theorem first_nearest (p : List Nat → Bool) (P : Int → Prop) (s : List Nat) (pos : Nat)
    (hP : ∀ q : Nat, P q ↔ q < s.length ∧ p (s.drop q) = true) (hneg : ∀ q : Int, q < 0 → ¬ P q) (r : Int)
    (hr : Str.Nearest P false pos r) : first p (s.drop pos) pos = r := by
  rcases first_cases p (s.drop pos) pos with ⟨e, hn⟩ | ⟨q, hq, e, hp, hb⟩
  · rw [e]
    rcases hr with ⟨hr, ha, _⟩ | ⟨hr, _⟩
    · exfalso
      have h0 : 0 ≤ r := Int.not_lt.mp fun h => hneg r h hr
      obtain ⟨k, rfl⟩ := Int.eq_ofNat_of_zero_le h0
      obtain ⟨hk, hk'⟩ := (hP k).mp hr
      simp only [Str.Ahead, Bool.false_eq_true, if_false] at ha
      have h' := hn (k - pos) (by rw [List.length_drop]; omega)
      rw [List.drop_drop, show pos + (k - pos) = k by omega] at h'
      rw [h'] at hk'
      exact absurd hk' (by simp)
    · exact hr.symm
  · rw [e]
    rw [List.length_drop] at hq
    rw [List.drop_drop] at hp
    have hPq : P ((pos + q : Nat) : Int) := (hP _).mpr ⟨by omega, hp⟩
    rcases hr with ⟨hr, ha, hm⟩ | ⟨_, hn⟩
    · have h1 := hm _ hPq (by simp only [Str.Ahead, Bool.false_eq_true, if_false]; omega)
      simp only [Str.Ahead, Bool.false_eq_true, if_false] at h1 ha
      have h0 : 0 ≤ r := by omega
      obtain ⟨k, rfl⟩ := Int.eq_ofNat_of_zero_le h0
      obtain ⟨hk, hk'⟩ := (hP k).mp hr
      by_cases hlt : k < pos + q
      · have h' := hb (k - pos) (by omega)
        rw [List.drop_drop, show pos + (k - pos) = k by omega] at h'
        rw [h'] at hk'
        exact absurd hk' (by simp)
      · omega
    · exact absurd hPq (hn _ (by simp only [Str.Ahead, Bool.false_eq_true, if_false]; omega))

/-- `find` is that of the string model, for every representation of the strings. -/
theorem C44_find (coll : Nat → Nat → Int) (hc : Props.Separates coll) (text pat : Str.S) (s sep : List Nat) (ht : Str.Rep text s)
    (hp : Str.Rep pat sep) (hs : sep ≠ []) (pos : Nat) : Str.findDir coll text pat false (some pos) = some (find s sep pos) := by
  obtain ⟨r, e, hr⟩ := Props.C27_find coll hc text pat s sep ht hp hs (some pos)
  rw [e]
  have : Str.position s.length 0 (some (pos : Int)) = pos := by simp [Str.position]; omega
  rw [this] at hr
  congr 1
  refine (first_nearest _ (Str.Occurs s sep) s pos (fun q => ?_) (fun q hq h => ?_) r hr).symm
  · constructor
    · rintro ⟨_, h⟩
      refine ⟨?_, List.isPrefixOf_iff_prefix.mpr h⟩
      have hl := h.length_le
      rw [List.length_drop] at hl
      have : sep.length ≠ 0 := fun c => hs (List.length_eq_zero_iff.mp c)
      simp only [Int.toNat_natCast] at hl
      omega
    · rintro ⟨_, h⟩
      exact ⟨by omega, List.isPrefixOf_iff_prefix.mp h⟩
  · have := h.1; omega

theorem stops_iff (s : List Nat) (set : List Nat) (w : Str.Width) (incl : Bool) (q : Nat) :
    Str.Stops s set w incl q ↔ q < s.length ∧ stops ⟨set, w.bytes⟩ incl (s.drop q) = true := by
  constructor
  · rintro ⟨c, _, h1, h2, h3⟩
    simp only [Int.toNat_natCast] at h1
    obtain ⟨hq, rfl⟩ := List.getElem?_eq_some_iff.mp h1
    refine ⟨hq, ?_⟩
    rw [List.drop_eq_getElem_cons hq]
    simp only [stops, h2, decide_true, Bool.true_and, beq_iff_eq]
    rw [Bool.eq_iff_iff, List.contains_iff_mem]
    exact h3
  · rintro ⟨hq, h⟩
    rw [List.drop_eq_getElem_cons hq] at h
    simp only [stops, Bool.and_eq_true, decide_eq_true_eq, beq_iff_eq] at h
    refine ⟨s[q], by omega, by simp [hq], h.1, ?_⟩
    rw [← List.contains_iff_mem, ← Bool.eq_iff_iff]
    exact h.2

/-- `scan` is that of the string model. -/
theorem C44_scan (text pat : Str.S) (s set : List Nat) (ht : Str.Rep text s) (hp : Str.Rep pat set) (pos : Nat) (hpos : pos ≤ s.length) (incl : Bool) :
    Str.scanDir text pat false incl (some pos) = some (scan s ⟨set, pat.width.bytes⟩ pos incl) := by
  unfold scan
  by_cases hs : set = []
  · subst hs
    rw [if_pos rfl, if_pos hpos]
    unfold Str.scanDir
    simp only [Bool.false_eq_true, if_false, false_and]
    unfold Str.scan
    rw [hp.len]
    simp only [List.length_nil, if_true, Str.indexArg, ht.len]
    split <;> (try split) <;> (try split) <;> first | omega | (congr 1 <;> omega) | rfl
  · rw [if_neg hs]
    obtain ⟨r, e, hr⟩ := Props.scan_nearest text pat s set ht hp hs false incl (some pos)
    rw [e]
    have : Props.scanFrom s false (some (pos : Int)) = pos := by simp [Props.scanFrom, Str.position]; omega
    rw [this] at hr
    congr 1
    refine (first_nearest _ _ s pos (fun q => stops_iff s set pat.width incl q) (fun q hq h => ?_) r hr).symm
    obtain ⟨_, h, _⟩ := h
    omega

/-- `rscan` is that of the string model. -/
theorem C44_rscan (text pat : Str.S) (s set : List Nat) (ht : Str.Rep text s) (hp : Str.Rep pat set) (incl : Bool) :
    Str.scanDir text pat true incl none = some (rscan s ⟨set, pat.width.bytes⟩ incl) := by
  unfold rscan
  by_cases hs : set = []
  · subst hs
    rw [if_pos rfl]
    unfold Str.scanDir
    simp only [true_and, if_true, Str.indexArg]
    unfold Str.scan
    rw [hp.len, ht.len]
    simp
  · rw [if_neg hs]
    obtain ⟨r, e, hr⟩ := Props.scan_nearest text pat s set ht hp hs true incl none
    rw [e]
    have : Props.scanFrom s true none = s.length := by simp [Props.scanFrom, Str.position]
    rw [this] at hr
    congr 1
    have key : ∀ q : Nat, q < s.length → stops ⟨set, pat.width.bytes⟩ incl (s.reverse.drop q) = stops ⟨set, pat.width.bytes⟩ incl (s.drop (s.length - 1 - q)) := by
      intro q hq
      rw [List.drop_eq_getElem_cons (by simpa using hq), List.drop_eq_getElem_cons (by omega : s.length - 1 - q < s.length), List.getElem_reverse]
      rfl
    simp only
    rcases first_cases (stops ⟨set, pat.width.bytes⟩ incl) s.reverse 0 with ⟨e1, hn⟩ | ⟨q, hq, e1, h1, hb⟩
    · rw [e1, if_pos rfl]
      rcases hr with ⟨hr, ha, _⟩ | ⟨hr, _⟩
      · exfalso
        have h0 : 0 ≤ r := by obtain ⟨_, h, _⟩ := hr; exact h
        obtain ⟨k, rfl⟩ := Int.eq_ofNat_of_zero_le h0
        obtain ⟨hk, hk'⟩ := (stops_iff ..).mp hr
        have h' := hn (s.length - 1 - k) (by simp; omega)
        rw [key _ (by omega), show s.length - 1 - (s.length - 1 - k) = k by omega, hk'] at h'
        cases h'
      · exact hr
    · rw [e1, if_neg (by omega)]
      rw [List.length_reverse] at hq
      rw [key _ hq] at h1
      have hP := (stops_iff s set pat.width incl (s.length - 1 - q)).mpr ⟨by omega, h1⟩
      rcases hr with ⟨hr, ha, hm⟩ | ⟨_, hn⟩
      · have h2 := hm _ hP (by simp only [Str.Ahead, if_true]; omega)
        simp only [Str.Ahead, if_true] at h2 ha
        have h0 : 0 ≤ r := by omega
        obtain ⟨k, rfl⟩ := Int.eq_ofNat_of_zero_le h0
        obtain ⟨hk, hk'⟩ := (stops_iff ..).mp hr
        by_cases hlt : s.length - 1 - k < q
        · have h' := hb (s.length - 1 - k) hlt
          rw [key _ (by omega), show s.length - 1 - (s.length - 1 - k) = k by omega, hk'] at h'
          cases h'
        · omega
      · exact absurd hP (hn _ (by simp only [Str.Ahead, if_true]; omega))

/-- `slice` is that of the string model. -/
theorem C44_slice (env : Str.Env) (text : Str.S) (s : List Nat) (ht : Str.Rep text s) (b e : Int) (hb : 0 ≤ b) (he : 0 ≤ e) (hbe : b ≤ e) (hel : e ≤ s.length) :
    (∃ r, Str.slice env text b e = .ok r ∧ Str.Rep r (slice s b e)) ∨ (Str.slice env text b e = .raise .outOfMemory ∧ env.mem = false) := by
  have := Str.slice_spec env text s b e ht
  have hr : Str.range s.length b e = (b, e) := by
    unfold Str.range
    simp only [if_neg (Int.not_lt.mpr hb), if_neg (Int.not_lt.mpr he)]
    have h1 : ¬ e > (s.length : Int) := by omega
    simp only [if_neg h1, if_neg (Int.not_lt.mpr hbe)]
  rw [hr] at this
  exact this

/-- `concat` is that of the string model. -/
theorem C44_concat (env : Str.Env) (l : List (Str.S × List Nat)) (hl : ∀ p ∈ l, Str.Rep p.1 p.2) (hlt : (l.map Prod.snd).flatten.length < 4294967296) :
    match concat (l.map Prod.snd) with
    | some s => (∃ r, Str.addN env (l.map Prod.fst) = .ok r ∧ Str.Rep r s) ∨ (Str.addN env (l.map Prod.fst) = .raise .outOfMemory ∧ env.mem = false)
    | none => Str.addN env (l.map Prod.fst) = .raise .tooLong := by
  have := Str.addN_spec env l hl hlt
  unfold concat
  by_cases h : (l.map Prod.snd).flatten.length ≤ 65535
  · rw [if_pos h]; exact this.1 h
  · rw [if_neg h]; exact this.2 (by omega)

/-! ### Splitting -/

theorem slice_end (s : List Nat) (pos : Nat) : slice s pos s.length = s.drop pos := by simp [slice]

theorem slice_to (s : List Nat) (pos q : Nat) : slice s pos ((pos + q : Nat) : Int) = (s.drop pos).take q := by
  simp only [slice, Int.toNat_natCast]
  rw [List.drop_take, Nat.add_sub_cancel_left]

/-- A list which occurs has a first place. -/
theorem infix_iff (sep l : List Nat) : sep <:+: l ↔ ∃ q, q + sep.length ≤ l.length ∧ sep <+: l.drop q := by
  constructor
  · rintro ⟨a, b, rfl⟩
    exact ⟨a.length, by simp, by simp⟩
  · rintro ⟨q, _, h⟩
    exact h.isInfix.trans (List.drop_suffix q l).isInfix

theorem sepLoop_spec (s sep : List Nat) (hs : sep ≠ []) (n pos : Nat) (hp : pos ≤ s.length) : Splits sep n (s.drop pos) (sepLoop s sep n pos) := by
  have hl : 0 < sep.length := by
    rcases Nat.eq_zero_or_pos sep.length with h | h
    · exact absurd (List.length_eq_zero_iff.mp h) hs
    · exact h
  induction n generalizing pos with
  | zero => rw [sepLoop, slice_end]; exact .stop _
  | succ n ih =>
    rw [sepLoop]
    rcases first_cases (fun l => sep.isPrefixOf l) (s.drop pos) pos with ⟨e, hn⟩ | ⟨q, hq, e, h, hb⟩
    · rw [find, e, if_pos rfl, slice_end]
      refine .last _ _ fun hi => ?_
      obtain ⟨q, h1, h2⟩ := (infix_iff ..).mp hi
      have := hn q (by omega)
      simp only [Bool.eq_false_iff, ne_eq, List.isPrefixOf_iff_prefix] at this
      exact this h2
    · rw [find, e, if_neg (by omega), slice_to, Int.toNat_natCast]
      simp only [List.isPrefixOf_iff_prefix] at h
      obtain ⟨r, hr⟩ := h
      have hr' : r = s.drop (pos + q + sep.length) := by
        have h := congrArg (List.drop sep.length) hr
        rw [List.drop_left, List.drop_drop, List.drop_drop] at h
        rw [h, Nat.add_assoc]
      have hd : s.drop pos = (s.drop pos).take q ++ sep ++ r := by
        rw [List.append_assoc, hr, List.take_append_drop]
      have hlen := congrArg List.length hr
      simp only [List.length_append, List.length_drop] at hlen hq
      have hsub := ih (pos + q + sep.length) (by omega)
      rw [← hr'] at hsub
      refine Eq.mp ?_ (Splits.more n ((s.drop pos).take q) r _ ?_ hsub)
      · rw [← hd]
      · intro hi
        obtain ⟨k, h1, h2⟩ := (infix_iff ..).mp hi
        have hlt : ((s.drop pos).take q ++ sep).length = q + sep.length := by simp; omega
        rw [List.length_dropLast, hlt] at h1
        have hk := hb k (by omega)
        simp only [Bool.eq_false_iff, ne_eq, List.isPrefixOf_iff_prefix] at hk
        apply hk
        rw [hd]
        obtain ⟨t, ht⟩ := h2
        obtain ⟨t', ht'⟩ := (List.dropLast_prefix ((s.drop pos).take q ++ sep))
        rw [← ht', List.append_assoc, List.drop_append_of_le_length (by rw [List.length_dropLast, hlt]; omega), ← ht, List.append_assoc]
        exact List.prefix_append ..

theorem Splits.ne_nil {sep s : List Nat} {n : Nat} {ps : List (List Nat)} (h : Splits sep n s ps) : ps ≠ [] := by cases h <;> simp

theorem Splits.glue {sep s : List Nat} {n : Nat} {ps : List (List Nat)} (h : Splits sep n s ps) : Text.glue sep ps = s := by
  induction h with
  | stop s => rfl
  | last n s _ => rfl
  | more n p r ps _ h ih =>
    cases ps with
    | nil => exact absurd rfl h.ne_nil
    | cons q l => simp only [Text.glue, ih]

/-- The last piece may contain the separator if there were `n` splits. -/
theorem Splits.pieces {sep s : List Nat} {n : Nat} {ps : List (List Nat)} (hs : sep ≠ []) (h : Splits sep n s ps) :
    ps.length ≤ n + 1 ∧ (∀ p ∈ ps.dropLast, ¬ sep <:+: p) ∧ (s.length ≤ n → ∀ p ∈ ps, ¬ sep <:+: p) ∧ (ps.length < n + 1 → ∀ p ∈ ps, ¬ sep <:+: p) := by
  have hl : 0 < sep.length := by
    rcases Nat.eq_zero_or_pos sep.length with h | h
    · exact absurd (List.length_eq_zero_iff.mp h) hs
    · exact h
  have hsub : ∀ p : List Nat, ¬ sep <:+: (p ++ sep).dropLast → ¬ sep <:+: p := by
    intro p h1 h2
    refine h1 (h2.trans (List.IsPrefix.isInfix ?_))
    rw [List.dropLast_append_of_ne_nil hs]
    exact List.prefix_append ..
  induction h with
  | stop s =>
    refine ⟨by simp, by simp, fun h p hp => ?_, by simp⟩
    rw [List.mem_singleton] at hp
    subst hp
    intro hi
    have := hi.length_le
    omega
  | last n s hn => exact ⟨by simp, by simp, fun _ p hp => by rw [List.mem_singleton.mp hp]; exact hn, fun _ p hp => by rw [List.mem_singleton.mp hp]; exact hn⟩
  | more n p r ps hp h ih =>
    obtain ⟨h1, h2, h3, h4⟩ := ih
    refine ⟨by simpa using h1, ?_, ?_, ?_⟩
    · intro x hx
      rw [List.dropLast_cons_of_ne_nil h.ne_nil] at hx
      rcases List.mem_cons.mp hx with rfl | hx
      · exact hsub _ hp
      · exact h2 x hx
    · intro hlen x hx
      simp only [List.length_append] at hlen
      rcases List.mem_cons.mp hx with rfl | hx
      · exact hsub _ hp
      · exact h3 (by omega) x hx
    · intro hlen x hx
      rcases List.mem_cons.mp hx with rfl | hx
      · exact hsub _ hp
      · exact h4 (by simpa using hlen) x hx

/-- **C44**, `split`: every separator and limit. -/
theorem C44_split (s sep : List Nat) (hs : sep ≠ []) (maxSplit : Int) (h0 : maxSplit ≠ 0) :
    ∃ ps, split s (some sep) maxSplit = some ps ∧ Splits sep (parts maxSplit - 1) s ps := by
  refine ⟨sepLoop s sep (parts maxSplit - 1) 0, ?_, sepLoop_spec s sep hs _ 0 (Nat.zero_le _)⟩
  unfold split
  rw [if_neg (fun h => hs (by injection h)), if_neg h0]

/-- What cannot be split. -/
theorem C44_split_none (s : List Nat) (sep : Option (List Nat)) (maxSplit : Int) : (split s (some []) maxSplit = none) ∧ (sep ≠ some [] → split s sep 0 = some []) := by
  refine ⟨by simp [split], fun h => ?_⟩
  unfold split
  rw [if_neg h, if_pos rfl]

/-! ### Joining -/

theorem place_spec (sep : List Nat) (x : List Nat) (xs pre : List (List Nat)) :
    (place (pre ++ List.replicate (2 * xs.length + 1) sep) (x :: xs) pre.length).flatten = pre.flatten ++ glue sep (x :: xs) := by
  induction xs generalizing x pre with
  | nil => simp [place, glue]
  | cons y l ih =>
    rw [place]
    have he : (pre ++ List.replicate (2 * (y :: l).length + 1) sep).set pre.length x = (pre ++ [x, sep]) ++ List.replicate (2 * l.length + 1) sep := by
      rw [show 2 * (y :: l).length + 1 = (2 * l.length + 1) + 1 + 1 by simp; omega, List.replicate_succ, List.replicate_succ]
      simp
    rw [he, show pre.length + 2 = (pre ++ [x, sep]).length by simp, ih]
    simp [glue]

/-- **C44**, `join`: pieces with the separator in between. -/
theorem C44_join (sep : List Nat) (ps : List (List Nat)) : join sep ps = if (glue sep ps).length ≤ 65535 then some (glue sep ps) else none := by
  unfold join
  simp only
  cases ps with
  | nil => simp [place, concat, glue]
  | cons x xs =>
    have hn : ((x :: xs).length : Int) * 2 - 1 = ((2 * xs.length + 1 : Nat) : Int) := by simp; omega
    rw [hn, if_pos (by omega), Int.toNat_natCast]
    have := place_spec sep x xs []
    simp only [List.nil_append, List.length_nil, List.flatten_nil] at this
    unfold concat
    rw [this]

/-- **C44**: joining the pieces gives the string back, for every separator and limit. -/
theorem C44_back (s sep : List Nat) (hs : sep ≠ []) (hl : s.length ≤ 65535) (maxSplit : Int) (h0 : maxSplit ≠ 0) :
    ∃ ps, split s (some sep) maxSplit = some ps ∧ join sep ps = some s ∧ (∀ p ∈ ps.dropLast, ¬ sep <:+: p) ∧
      (maxSplit < 0 → ∀ p ∈ ps, ¬ sep <:+: p) ∧ (0 < maxSplit → (ps.length : Int) ≤ maxSplit ∧ ((ps.length : Int) < maxSplit → ∀ p ∈ ps, ¬ sep <:+: p)) := by
  obtain ⟨ps, e, h⟩ := C44_split s sep hs maxSplit h0
  obtain ⟨h1, h2, h3, h4⟩ := h.pieces hs
  refine ⟨ps, e, ?_, h2, fun hm => h3 ?_, fun hm => ?_⟩
  · rw [C44_join, h.glue, if_pos hl]
  · rw [parts, if_pos hm]; omega
  · rw [parts, if_neg (by omega)] at h1 h4
    exact ⟨by omega, fun hlt => h4 (by omega)⟩

/-- Splitting a list of characters at each occurrence of one character. -/
theorem Splits.single {c : Nat} {n : Nat} {s : List Nat} {ps : List (List Nat)} (h : Splits [c] n s ps) (qs : List (List Nat)) (hq : qs ≠ []) (hn : qs.length ≤ n + 1)
    (hc : ∀ q ∈ qs, c ∉ q) (e : s = Text.glue [c] qs) : ps = qs := by
  have hin : ∀ (l : List Nat), [c] <:+: l ↔ c ∈ l := fun l => by
    constructor
    · rintro ⟨a, b, rfl⟩; simp
    · intro h
      obtain ⟨a, b, rfl⟩ := List.append_of_mem h
      exact ⟨a, b, by simp⟩
  induction h generalizing qs with
  | stop s =>
    match qs, hq, hn with
    | [q], _, _ => simp only [Text.glue] at e; rw [e]
    | q :: q' :: l, _, hn => simp at hn
  | last n s hnot =>
    rw [hin] at hnot
    match qs, hq with
    | [q], _ => simp only [Text.glue] at e; rw [e]
    | q :: q' :: l, _ => rw [e] at hnot; simp [Text.glue] at hnot
  | more n p r ps hp h ih =>
    rw [List.dropLast_append_of_ne_nil (by simp)] at hp
    simp only [List.dropLast_singleton, List.append_nil, hin] at hp
    match qs, hq with
    | [q], _ =>
      simp only [Text.glue] at e
      have := hc q (by simp)
      rw [← e] at this
      simp at this
    | q :: q' :: l, _ =>
      simp only [Text.glue, List.append_assoc, List.singleton_append] at e
      have hq0 := hc q (by simp)
      have hpq : p = q ∧ r = Text.glue [c] (q' :: l) := by
        clear ih hn hc
        induction p generalizing q with
        | nil =>
          cases q with
          | nil => simpa using e
          | cons a q => simp at e; simp [e.1] at hq0
        | cons b p ihp =>
          cases q with
          | nil => simp at e; simp [e.1] at hp
          | cons a q =>
            simp only [List.cons_append, List.cons.injEq] at e
            have := ihp (fun hm => hp (List.mem_cons_of_mem _ hm)) q (by simp) e.2 (fun hm => hq0 (List.mem_cons_of_mem _ hm))
            rw [e.1, this.1]
            exact ⟨rfl, this.2⟩
      rw [hpq.1, ih (q' :: l) (by simp) (by simpa using hn) (fun x hx => hc x (List.mem_cons_of_mem _ hx)) hpq.2]

/-- **C44**, the other way round: splitting what was joined with one character gives the pieces, if none of them contains it. -/
theorem C44_forth (c : Nat) (ps : List (List Nat)) (hp : ps ≠ []) (hc : ∀ p ∈ ps, c ∉ p) (s : List Nat) (hj : join [c] ps = some s) :
    split s (some [c]) = some ps := by
  rw [C44_join] at hj
  split at hj
  · injection hj with hj
    obtain ⟨qs, e, h⟩ := C44_split s [c] (by simp) (-1) (by omega)
    rw [e, h.single ps hp ?_ hc hj.symm]
    have : ps.length ≤ (glue [c] ps).length + 1 := by
      clear hp hc hj e h
      rename_i hle
      clear hle
      induction ps with
      | nil => simp
      | cons p l ih => cases l with
        | nil => simp [glue]
        | cons q l => simp only [glue, List.length_append, List.length_cons, List.length_nil] at ih ⊢; omega
    have hpar : parts (-1) - 1 = 65535 := rfl
    omega
  · cases hj

/-! ### Lines -/

theorem eol_fits : ∀ c ∈ eol.codes, c < 256 ^ eol.bytes := by decide

theorem eol_iff (c : Nat) : c ∈ eol.codes ↔ LineEnd c := by
  simp only [eol, LineEnd, List.mem_cons, List.not_mem_nil, or_false]
  omega

theorem scan_eol (s : List Nat) (pos : Nat) : (scan s eol pos true = -1 ∧ ∀ c ∈ s.drop pos, ¬ LineEnd c) ∨
    ∃ a c r, s.drop pos = a ++ c :: r ∧ (∀ x ∈ a, ¬ LineEnd x) ∧ LineEnd c ∧ scan s eol pos true = ((pos + a.length : Nat) : Int) := by
  have hst : ∀ (l : List Nat) (q : Nat) (hq : q < l.length), stops eol true (l.drop q) = true ↔ LineEnd l[q] := by
    intro l q hq
    rw [List.drop_eq_getElem_cons hq]
    simp only [stops, Bool.and_eq_true, decide_eq_true_eq, beq_iff_eq, List.contains_iff_mem]
    rw [eol_iff]
    exact ⟨And.right, fun h => ⟨eol_fits _ ((eol_iff _).2 h), h⟩⟩
  unfold scan
  rw [if_neg (by decide)]
  rcases first_cases (stops eol true) (s.drop pos) pos with ⟨e, hn⟩ | ⟨q, hq, e, h, hb⟩
  · refine .inl ⟨e, fun c hc => ?_⟩
    obtain ⟨q, hq, rfl⟩ := List.getElem_of_mem hc
    have := hn q hq
    rw [← Bool.not_eq_true, hst _ q hq] at this
    exact this
  · refine .inr ⟨(s.drop pos).take q, (s.drop pos)[q], (s.drop pos).drop (q + 1), ?_, ?_, (hst _ q hq).mp h, ?_⟩
    · rw [← List.drop_eq_getElem_cons hq, List.take_append_drop]
    · intro x hx
      obtain ⟨k, hk, rfl⟩ := List.getElem_of_mem hx
      simp only [List.length_take] at hk
      rw [List.getElem_take]
      have := hb k (by omega)
      rw [← Bool.not_eq_true, hst _ k (by omega)] at this
      exact this
    · rw [e, List.length_take, Nat.min_eq_left (by omega)]

theorem lineLoop_spec (s : List Nat) (n pos : Nat) (hp : pos ≤ s.length) (hn : s.length - pos < n) :
    ∃ ls, Lines (s.drop pos) ls ∧ ∀ keep, lineLoop s keep n pos = some (ls.map fun l => if keep then l.1 ++ l.2 else l.1) := by
  induction n generalizing pos with
  | zero => omega
  | succ n ih =>
    by_cases hend : pos = s.length
    · refine ⟨[], by rw [hend, List.drop_length]; exact .none, fun keep => ?_⟩
      rw [lineLoop, if_pos hend]; rfl
    rcases scan_eol s pos with ⟨e, h⟩ | ⟨a, c, r, hd, ha, hc, e⟩
    · refine ⟨[(s.drop pos, [])], .last _ ?_ h, fun keep => ?_⟩
      · intro h0
        have := congrArg List.length h0
        simp only [List.length_drop, List.length_nil] at this
        omega
      · rw [lineLoop, if_neg hend]
        simp only [e, if_true, slice_end]
        cases keep <;> simp
    · have hlen := congrArg List.length hd
      simp only [List.length_drop, List.length_append, List.length_cons] at hlen
      have hdrop : ∀ k, s.drop (pos + k) = (a ++ c :: r).drop k := fun k => by rw [← hd, List.drop_drop]
      have hget : ∀ k, s[pos + k]? = (a ++ c :: r)[k]? := fun k => by rw [← hd, List.getElem?_drop]
      have hc0 : s[pos + a.length]? = some c := by rw [hget]; simp
      have hc1 : s[pos + a.length + 1]? = r.head? := by
        rw [Nat.add_assoc, hget]
        cases r <;> simp
      by_cases hcr : c = 13 ∧ r.head? = some 10
      · obtain ⟨rfl, hr⟩ := hcr
        obtain ⟨r', rfl⟩ : ∃ r', r = 10 :: r' := by
          cases r with
          | nil => simp at hr
          | cons x r' => simp at hr; exact ⟨r', by rw [hr]⟩
        simp only [List.length_cons] at hlen
        obtain ⟨ls, h1, h2⟩ := ih (pos + a.length + 2) (by omega) (by omega)
        have hr' : s.drop (pos + a.length + 2) = r' := by rw [Nat.add_assoc, hdrop]; simp
        rw [hr'] at h1
        refine ⟨(a, [13, 10]) :: ls, ?_, fun keep => ?_⟩
        · rw [hd]
          have := Lines.crlf a r' ls ha h1
          simpa using this
        · rw [lineLoop, if_neg hend]
          simp only [e]
          rw [if_neg (by omega), Int.toNat_natCast, if_pos ⟨hc0, by omega, by rw [hc1]; rfl⟩, h2]
          have s1 : slice s pos ((pos + a.length : Nat) : Int) = a := by rw [slice_to, hd]; simp
          have s2 : slice s pos (((pos + a.length : Nat) : Int) + 2) = a ++ [13, 10] := by
            rw [show ((pos + a.length : Nat) : Int) + 2 = ((pos + (a.length + 2) : Nat) : Int) by omega, slice_to, hd]
            rw [List.take_length_add_append]; rfl
          cases keep <;> simp only [Bool.false_eq_true, if_false, if_true, List.map_cons, Option.map_some, s1, s2]
      · obtain ⟨ls, h1, h2⟩ := ih (pos + a.length + 1) (by omega) (by omega)
        have hr' : s.drop (pos + a.length + 1) = r := by rw [Nat.add_assoc, hdrop]; simp
        rw [hr'] at h1
        refine ⟨(a, [c]) :: ls, ?_, fun keep => ?_⟩
        · rw [hd]
          have := Lines.one a c r ls ha hc (fun h1 h2 => hcr ⟨h1, h2⟩) h1
          simpa using this
        · rw [lineLoop, if_neg hend]
          simp only [e]
          rw [if_neg (by omega), Int.toNat_natCast, if_neg (by
            rintro ⟨g1, _, g3⟩
            rw [hc0] at g1; rw [hc1] at g3
            exact hcr ⟨by injection g1, g3⟩), h2]
          have s1 : slice s pos ((pos + a.length : Nat) : Int) = a := by rw [slice_to, hd]; simp
          have s2 : slice s pos (((pos + a.length : Nat) : Int) + 1) = a ++ [c] := by
            rw [show ((pos + a.length : Nat) : Int) + 1 = ((pos + (a.length + 1) : Nat) : Int) by omega, slice_to, hd]
            rw [List.take_length_add_append]; rfl
          cases keep <;> simp only [Bool.false_eq_true, if_false, if_true, List.map_cons, Option.map_some, s1, s2]

/-- **C44**, `split_lines`: lines are those of the specification, with or without their ends. -/
theorem C44_lines (s : List Nat) : ∃ ls, Lines s ls ∧ ∀ keep, splitLines s keep = some (ls.map fun l => if keep then l.1 ++ l.2 else l.1) :=
  lineLoop_spec s _ 0 (Nat.zero_le _) (by omega)

theorem Lines.flatten {s : List Nat} {ls : List (List Nat × List Nat)} (h : Lines s ls) : (ls.map fun l => l.1 ++ l.2).flatten = s := by
  induction h with
  | none => rfl
  | last s _ _ => simp
  | crlf s r ls _ _ ih => simp [ih]
  | one s c r ls _ _ _ _ ih => simp [ih]

/-- **C44** -/
theorem C44 : C44_full := by
  intro s hl
  refine ⟨fun sep hs => ?_, ?_⟩
  · obtain ⟨ps, e, h1, _, h3, _⟩ := C44_back s sep hs hl (-1) (by omega)
    exact ⟨ps, e, h1, h3 (by omega)⟩
  · obtain ⟨ls, h, e⟩ := C44_lines s
    refine ⟨_, e true, ?_⟩
    simpa using h.flatten

/-- "a--b---c" split at "--", with and without a limit, and lines with different ends. -/
example : split [97, 45, 45, 98, 45, 45, 45, 99] (some [45, 45]) = some [[97], [98], [45, 99]] ∧
    split [97, 45, 45, 98, 45, 45, 45, 99] (some [45, 45]) 2 = some [[97], [98, 45, 45, 45, 99]] ∧
    join [45, 45] [[97], [98], [45, 99]] = some [97, 45, 45, 98, 45, 45, 45, 99] ∧
    splitLines [97, 13, 10, 10, 98, 13] true = some [[97, 13, 10], [10], [98, 13]] ∧ splitLines [97, 13, 10, 10, 98, 13] = some [[97], [], [98]] := by decide

end Verif.Text
