import Verif.Props.C30

/-!
C50: source line lookup is exact.
-/
namespace Verif.Props.C50
open Verif.Compiler Verif.Props.C30

/-! ## Specification -/

/-- Line of the last mapping at or before `x`. -/
def lineAt (table : List LineAddr) (x : Nat) : Option Nat := ((table.filter fun a => a.offs ≤ x).getLast?).map (·.line)

/-- The line of offset `x` of a function, from all (offset, line) pairs noted while its code was being generated: the greatest line noted at the
last offset at or before `x`. -/
def specLine (calls : List (Nat × Nat)) (x : Nat) : Nat :=
  let o := ((calls.filter fun c => c.1 ≤ x).map (·.1)).foldl max 0
  ((calls.filter fun c => c.1 = o).map (·.2)).foldl max 0

/-- What the functions being compiled have noted, innermost first: their starts and pairs, with offsets from the start. -/
structure Spec where
  cur : Nat
  funs : List (Nat × List (Nat × Nat))
  done : List (Nat × List (Nat × Nat))

def Spec.init : Spec := ⟨0, [(0, [])], []⟩

def Spec.step (s : Spec) : GenEv → Spec
  | .line l =>
    match s.funs with
    | [] => s
    | (start, calls) :: fs => { s with funs := (start, calls ++ [(s.cur - start, l)]) :: fs }
  | .emit n => { s with cur := s.cur + n }
  | .enter l => { s with funs := (s.cur, [(0, l)]) :: s.funs }
  | .leave =>
    match s.funs with
    | [] => s
    | (start, calls) :: fs => ⟨start, fs, s.done ++ [(s.cur - start, calls)]⟩

def Spec.run (s : Spec) (es : List GenEv) : Spec := es.foldl Spec.step s

/-! ## Lookup -/

theorem nil_or_snoc {α : Type} (l : List α) : l = [] ∨ ∃ L b, l = L ++ [b] := by
  rcases List.eq_nil_or_concat l with h | ⟨L, b, h⟩
  · exact Or.inl h
  · exact Or.inr ⟨L, b, by rw [h, List.concat_eq_append]⟩

theorem lineScan_spec (t : List LineAddr) (x : Nat) : ∀ (fuel i : Nat), t.length < i + fuel → (∀ k a, k < i → t[k]? = some a → a.offs < x) → i ≤ t.length →
    (∀ k a, k < lineScan t x fuel i → t[k]? = some a → a.offs < x) ∧ lineScan t x fuel i ≤ t.length ∧
      (∀ a, t[lineScan t x fuel i]? = some a → x ≤ a.offs) := by
  intro fuel
  induction fuel with
  | zero => intro i h1 h2 h3; omega
  | succ fuel ih =>
    intro i h1 h2 h3
    unfold lineScan
    cases hi : t[i]? with
    | none =>
      simp only []
      refine ⟨h2, h3, ?_⟩
      intro a ha; rw [hi] at ha; cases ha
    | some a =>
      have hlt := (List.getElem?_eq_some_iff.mp hi).1
      simp only []
      by_cases h : x > a.offs
      · rw [if_pos h]
        refine ih (i + 1) (by omega) ?_ (by omega)
        intro k b hk hb
        by_cases hki : k = i
        · subst hki; rw [hi] at hb; cases hb; exact h
        · exact h2 k b (by omega) hb
      · rw [if_neg h]
        refine ⟨h2, h3, ?_⟩
        intro b hb; rw [hi] at hb; cases hb; omega

/-- The filter of a strictly increasing table is its prefix. -/
theorem filter_prefix (t : List LineAddr) (x n : Nat) (h1 : ∀ k a, k < n → t[k]? = some a → a.offs ≤ x) (h2 : ∀ k a, n ≤ k → t[k]? = some a → x < a.offs) :
    (t.filter fun a => a.offs ≤ x) = t.take n := by
  induction t generalizing n with
  | nil => simp
  | cons b t ih =>
    cases n with
    | zero =>
      simp only [List.take_zero, List.filter_eq_nil_iff, decide_eq_true_eq]
      intro a ha
      obtain ⟨k, hk⟩ := List.mem_iff_getElem?.mp ha
      have := h2 k a (Nat.zero_le _) hk; omega
    | succ n =>
      have hb := h1 0 b (by omega) (by simp)
      rw [List.filter_cons, if_pos (by simpa using hb), List.take_succ_cons,
        ih n (fun k a hk ha => h1 (k + 1) a (by omega) (by simpa using ha)) (fun k a hk ha => h2 (k + 1) a (by omega) (by simpa using ha))]

/-- **C50.** For every strictly increasing table which starts at or before `x`, the line found is that of the last mapping at or before `x`; the
lookup does not go outside of the table. For an empty table the line is 0. -/
theorem C50_lookup (table : List LineAddr) (x : Nat) (hs : table.Pairwise fun a b => a.offs < b.offs) :
    (table = [] → addrToLine table x = some 0) ∧ (∀ a, table.head? = some a → a.offs ≤ x → ∃ l, lineAt table x = some l ∧ addrToLine table x = some l) := by
  constructor
  · rintro rfl; rfl
  · intro a ha hx
    cases table with
    | nil => simp at ha
    | cons b t =>
      simp only [List.head?_cons, Option.some.injEq] at ha
      subst ha
      generalize htt : b :: t = tt at *
      obtain ⟨h1, h2, h3⟩ := lineScan_spec tt x (tt.length + 1) 0 (by omega) (fun k _ hk => by omega) (Nat.zero_le _)
      have hlen : 0 < tt.length := by rw [← htt]; simp
      have hb0 : tt[0]? = some b := by rw [← htt]; rfl
      unfold addrToLine
      rw [if_pos hlen]
      simp only []
      generalize hi : lineScan tt x (tt.length + 1) 0 = i at *
      have hmono : ∀ (k k' : Nat) (c c' : LineAddr), k < k' → tt[k]? = some c → tt[k']? = some c' → c.offs < c'.offs := by
        intro k k' c c' hk hc hc'
        obtain ⟨a1, a2⟩ := List.getElem?_eq_some_iff.mp hc
        obtain ⟨a3, a4⟩ := List.getElem?_eq_some_iff.mp hc'
        have := List.pairwise_iff_getElem.mp hs k k' a1 a3 hk
        rw [a2, a4] at this; exact this
      -- the entry is number `n - 1`
      have key : ∀ (n : Nat) (c : LineAddr), 0 < n → tt[n - 1]? = some c → c.offs ≤ x → (∀ d, tt[n]? = some d → x < d.offs) → lineAt tt x = some c.line := by
        intro n c hn hc hcx hd
        unfold lineAt
        rw [filter_prefix tt x n]
        · rw [List.getLast?_take, if_neg (by omega), hc]; simp
        · intro k a hk ha
          by_cases hkn : k = n - 1
          · subst hkn; rw [hc] at ha; cases ha; exact hcx
          · have := hmono k (n - 1) a c (by omega) ha hc; omega
        · intro k a hk ha
          by_cases hkn : k = n
          · subst hkn; exact hd a ha
          · have hkl := (List.getElem?_eq_some_iff.mp ha).1
            have hn' := List.getElem?_eq_getElem (show n < tt.length by omega)
            have := hmono n k _ a (by omega) hn' ha
            have := hd _ hn'
            omega
      cases hti : tt[i]? with
      | none =>
        have hil : i = tt.length := by
          have := List.getElem?_eq_none_iff.mp hti; omega
        simp only []
        rw [if_neg (by simp; omega), if_pos trivial]
        have hc := List.getElem?_eq_getElem (show i - 1 < tt.length by omega)
        have hcx := h1 (i - 1) _ (by omega) hc
        rw [hc]
        simp only []
        rw [if_pos (by omega)]
        exact ⟨_, key i _ (by omega) hc (by omega) (by intro d hd; rw [hti] at hd; cases hd), rfl⟩
      | some c =>
        have hxc := h3 c hti
        simp only []
        by_cases hlt : x < c.offs
        · have hi0 : 0 < i := by
            rcases Nat.eq_zero_or_pos i with h | h
            · subst h; rw [hb0] at hti; cases hti; omega
            · exact h
          rw [if_neg (by omega), if_pos (by simpa using hlt)]
          have hil := (List.getElem?_eq_some_iff.mp hti).1
          have hc := List.getElem?_eq_getElem (show i - 1 < tt.length by omega)
          have hcx := h1 (i - 1) _ (by omega) hc
          rw [hc]
          simp only []
          rw [if_pos (by omega)]
          exact ⟨_, key i _ hi0 hc (by omega) (by intro d hd; rw [hti] at hd; cases hd; exact hlt), rfl⟩
        · have hcx : c.offs = x := by omega
          rw [if_neg (by simp [hlt]), if_neg (by simpa using hlt), hti]
          simp only []
          rw [if_pos (by omega)]
          refine ⟨_, key (i + 1) c (by omega) hti (by omega) ?_, rfl⟩
          intro d hd
          have := hmono i (i + 1) c d (by omega) hti hd
          omega

/-! ## Tables made by the compiler -/

/-- A table made by noting pairs one after another. -/
def build (start : Nat) (calls : List (Nat × Nat)) : List LineAddr := calls.foldl (fun t c => addLine t (start + c.1) c.2 false) []

theorem build_snoc (s : Nat) (calls : List (Nat × Nat)) (c : Nat × Nat) : build s (calls ++ [c]) = addLine (build s calls) (s + c.1) c.2 false := by
  simp [build, List.foldl_append]

theorem addLine_ne_nil (t : List LineAddr) (x l : Nat) (f : Bool) : addLine t x l f ≠ [] := by
  unfold addLine
  cases h : t.getLast? with
  | none => simp
  | some last =>
    have ht : t ≠ [] := by rintro rfl; simp at h
    simp only []
    repeat' split
    all_goals simp [ht]

theorem build_ne_nil (s : Nat) (calls : List (Nat × Nat)) (h : calls ≠ []) : build s calls ≠ [] := by
  rcases nil_or_snoc calls with h' | ⟨L, b, rfl⟩
  · exact absurd h' h
  · rw [build_snoc]; exact addLine_ne_nil _ _ _ _

theorem foldl_max_snoc (l : List Nat) (a : Nat) : (l ++ [a]).foldl max 0 = max (l.foldl max 0) a := by simp [List.foldl_append]

theorem foldl_max_le (l : List Nat) (b : Nat) (h : ∀ a ∈ l, a ≤ b) : ∀ i, i ≤ b → l.foldl max i ≤ b := by
  induction l with
  | nil => intro i hi; exact hi
  | cons a l ih =>
    intro i hi
    have := h a List.mem_cons_self
    exact ih (fun c hc => h c (List.mem_cons_of_mem _ hc)) _ (by omega)

/-- Pairs in the order of generated code. -/
def Sorted (calls : List (Nat × Nat)) : Prop := calls.Pairwise fun a b => a.1 ≤ b.1

theorem sorted_snoc {calls : List (Nat × Nat)} {c : Nat × Nat} (h : Sorted (calls ++ [c])) : Sorted calls ∧ ∀ a ∈ calls, a.1 ≤ c.1 := by
  obtain ⟨h1, _, h3⟩ := List.pairwise_append.mp h
  exact ⟨h1, fun a ha => h3 a ha c (by simp)⟩

/-- Everything noted is at or before `x`. -/
theorem specLine_all (calls : List (Nat × Nat)) (c : Nat × Nat) (x : Nat) (hs : ∀ a ∈ calls, a.1 ≤ c.1) (hx : c.1 ≤ x) :
    specLine (calls ++ [c]) x = max (((calls.filter fun a => a.1 = c.1).map (·.2)).foldl max 0) c.2 := by
  unfold specLine
  have h1 : ((calls ++ [c]).filter fun a => decide (a.1 ≤ x)) = calls ++ [c] := by
    rw [List.filter_eq_self]
    intro a ha
    rcases List.mem_append.mp ha with ha | ha
    · have := hs a ha; simp; omega
    · rcases List.mem_singleton.mp ha; simpa using hx
  rw [h1, List.map_append, List.map_singleton, foldl_max_snoc]
  have h2 : max ((calls.map (·.1)).foldl max 0) c.1 = c.1 := by
    have := foldl_max_le (calls.map (·.1)) c.1 (by
      intro a ha; obtain ⟨b, hb, rfl⟩ := List.mem_map.mp ha; exact hs b hb) 0 (Nat.zero_le _)
    omega
  simp only [h2]
  rw [List.filter_append, List.map_append]
  have h3 : [c].filter (fun a => decide (a.1 = c.1)) = [c] := by simp
  rw [h3, List.map_singleton, foldl_max_snoc]

theorem specLine_before (calls : List (Nat × Nat)) (c : Nat × Nat) (x : Nat) (hx : x < c.1) (hex : ∃ a ∈ calls, a.1 ≤ x) :
    specLine (calls ++ [c]) x = specLine calls x := by
  unfold specLine
  have h1 : [c].filter (fun a => decide (a.1 ≤ x)) = [] := by simp; omega
  rw [List.filter_append, h1, List.append_nil]
  simp only []
  have h2 : ((calls.filter fun a => decide (a.1 ≤ x)).map (·.1)).foldl max 0 ≤ x := by
    apply foldl_max_le _ _ _ _ (Nat.zero_le _)
    intro a ha
    obtain ⟨b, hb, rfl⟩ := List.mem_map.mp ha
    simpa using (List.mem_filter.mp hb).2
  generalize ((calls.filter fun a => decide (a.1 ≤ x)).map (·.1)).foldl max 0 = o at *
  rw [List.filter_append]
  have h3 : [c].filter (fun a => decide (a.1 = o)) = [] := by simp; omega
  rw [h3, List.append_nil]

structure Built (s : Nat) (calls : List (Nat × Nat)) : Prop where
  strict : (build s calls).Pairwise fun a b => a.offs < b.offs
  last : ∀ c, calls.getLast? = some c → ∃ L l, build s calls = L ++ [⟨s + c.1, l⟩]
  line : ∀ x, (∃ a ∈ calls, a.1 ≤ x) → lineAt (build s calls) (s + x) = some (specLine calls x)
  head : ∀ c, calls.head? = some c → ∃ l t, build s calls = ⟨s + c.1, l⟩ :: t
  ge : ∀ a ∈ build s calls, s ≤ a.offs

theorem lineAt_snoc_le (t : List LineAddr) (a : LineAddr) (x : Nat) (h : a.offs ≤ x) : lineAt (t ++ [a]) x = some a.line := by
  unfold lineAt
  rw [List.filter_append, List.filter_cons, if_pos (by simpa using h)]
  simp

theorem lineAt_snoc_gt (t : List LineAddr) (a : LineAddr) (x : Nat) (h : x < a.offs) : lineAt (t ++ [a]) x = lineAt t x := by
  unfold lineAt
  rw [List.filter_append, List.filter_cons, if_neg (by simpa using h)]
  simp

theorem built (s : Nat) : ∀ (n : Nat) (calls : List (Nat × Nat)), calls.length = n → Sorted calls → Built s calls := by
  intro n
  induction n with
  | zero =>
    intro calls hn _
    have : calls = [] := List.eq_nil_of_length_eq_zero hn
    subst this
    exact ⟨List.Pairwise.nil, by simp, by simp, by simp, by simp [build]⟩
  | succ n ih =>
    intro calls hn hs
    rcases nil_or_snoc calls with h' | ⟨L, c, rfl⟩
    · subst h'; simp at hn
    obtain ⟨hsL, hle⟩ := sorted_snoc hs
    have B := ih L (by simpa using hn) hsL
    rcases nil_or_snoc L with h0 | ⟨L', d, hL⟩
    · subst h0
      have hb : build s ([] ++ [c]) = [⟨s + c.1, c.2⟩] := by simp [build, addLine]
      rw [List.nil_append] at hb ⊢
      refine ⟨by rw [hb]; simp, ?_, ?_, ?_, by rw [hb]; simp⟩
      · intro c' hc'; simp only [List.getLast?_singleton, Option.some.injEq] at hc'; subst hc'; exact ⟨[], c.2, hb⟩
      · rintro x ⟨a, ha, hx⟩
        rcases List.mem_singleton.mp ha
        have h1 := specLine_all [] c x (by simp) hx
        rw [List.nil_append] at h1
        rw [hb, h1]
        have := lineAt_snoc_le [] ⟨s + c.1, c.2⟩ (s + x) (by simp only; omega)
        rw [List.nil_append] at this
        rw [this]; simp
      · intro c' hc'; simp only [List.head?_cons, Option.some.injEq] at hc'; subst hc'; exact ⟨c.2, [], hb⟩
    · have hlast : L.getLast? = some d := by rw [hL]; simp
      obtain ⟨T, l, hT⟩ := B.last d hlast
      have hdc : d.1 ≤ c.1 := hle d (by rw [hL]; simp)
      have hdx : ∀ a ∈ L, a.1 ≤ d.1 := by
        intro a ha
        rw [hL] at ha hsL
        rcases List.mem_append.mp ha with ha | ha
        · exact (sorted_snoc hsL).2 a ha
        · rcases List.mem_singleton.mp ha; exact Nat.le_refl _
      have hstrict := B.strict
      rw [hT] at hstrict
      obtain ⟨hst1, _, hst2⟩ := List.pairwise_append.mp hstrict
      have hTlt : ∀ a ∈ T, a.offs < s + d.1 := fun a ha => hst2 a ha ⟨s + d.1, l⟩ (by simp)
      have hge := B.ge
      rw [hT] at hge
      have hsp := B.line d.1 ⟨d, by rw [hL]; simp, Nat.le_refl _⟩
      rw [hT, lineAt_snoc_le _ _ _ (by simp)] at hsp
      simp only [Option.some.injEq] at hsp
      have hhead : ∀ c', (L ++ [c]).head? = some c' → L.head? = some c' := by
        intro c' hc'; rw [hL] at hc' ⊢; cases L' <;> simpa using hc'
      -- the new table
      by_cases heq : d.1 = c.1
      · have hb : build s (L ++ [c]) = T ++ [⟨s + c.1, max l c.2⟩] := by
          rw [build_snoc, hT]
          unfold addLine
          simp only [List.getLast?_concat, Bool.false_eq_true, if_false, heq, if_true, List.dropLast_concat]
          by_cases hgt : c.2 > l
          · rw [if_pos hgt]; congr 3; omega
          · rw [if_neg hgt]; congr 3; omega
        refine ⟨?_, ?_, ?_, ?_, ?_⟩
        · rw [hb, List.pairwise_append]
          refine ⟨hst1, by simp, ?_⟩
          intro a ha b hb'
          rcases List.mem_singleton.mp hb'
          have := hTlt a ha; simp only; omega
        · intro c' hc'
          simp only [List.getLast?_concat, Option.some.injEq] at hc'
          subst hc'; exact ⟨T, _, hb⟩
        · rintro x ⟨a, ha, hx⟩
          rw [hb]
          by_cases hxc : c.1 ≤ x
          · rw [lineAt_snoc_le _ _ _ (by simp only; omega), specLine_all L c x hle hxc]
            simp only [Option.some.injEq]
            congr 1
            have h1 := specLine_all L' d d.1 (fun a ha => hdx a (by rw [hL]; simp [ha])) (Nat.le_refl _)
            rw [hsp, hL, h1, List.filter_append, List.map_append]
            have h3 : [d].filter (fun a => decide (a.1 = c.1)) = [d] := by simp [heq]
            rw [h3, List.map_singleton, foldl_max_snoc, heq]
          · rw [lineAt_snoc_gt _ _ _ (by simp only; omega)]
            have hax : a ∈ L := by
              rcases List.mem_append.mp ha with h | h
              · exact h
              · rcases List.mem_singleton.mp h; omega
            rw [specLine_before L c x (by omega) ⟨a, hax, hx⟩, ← B.line x ⟨a, hax, hx⟩, hT, lineAt_snoc_gt _ _ _ (by simp only; omega)]
        · intro c' hc'
          obtain ⟨l', t, h1⟩ := B.head c' (hhead c' hc')
          rw [hT] at h1
          rw [hb]
          cases T with
          | nil =>
            simp only [List.nil_append, List.cons.injEq, LineAddr.mk.injEq] at h1
            exact ⟨_, [], by simp only [List.nil_append]; rw [← h1.1.1, heq]⟩
          | cons a T =>
            simp only [List.cons_append, List.cons.injEq] at h1
            exact ⟨l', _, by rw [List.cons_append, h1.1]⟩
        · intro a ha
          rw [hb] at ha
          rcases List.mem_append.mp ha with h | h
          · exact hge a (List.mem_append_left _ h)
          · rcases List.mem_singleton.mp h; simp
      · have hb : build s (L ++ [c]) = (T ++ [⟨s + d.1, l⟩]) ++ [⟨s + c.1, c.2⟩] := by
          rw [build_snoc, hT]
          unfold addLine
          simp only [List.getLast?_concat, Bool.false_eq_true, if_false]
          rw [if_neg (by omega)]
        refine ⟨?_, ?_, ?_, ?_, ?_⟩
        · rw [hb, List.pairwise_append]
          refine ⟨hstrict, by simp, ?_⟩
          intro a ha b hb'
          rcases List.mem_singleton.mp hb'
          rcases List.mem_append.mp ha with h | h
          · have := hTlt a h; simp only; omega
          · rcases List.mem_singleton.mp h; simp only; omega
        · intro c' hc'
          simp only [List.getLast?_concat, Option.some.injEq] at hc'
          subst hc'; exact ⟨_, _, hb⟩
        · rintro x ⟨a, ha, hx⟩
          rw [hb]
          by_cases hxc : c.1 ≤ x
          · rw [lineAt_snoc_le _ _ _ (by simp only; omega), specLine_all L c x hle hxc]
            simp only [Option.some.injEq]
            have h3 : L.filter (fun a => decide (a.1 = c.1)) = [] := by
              rw [List.filter_eq_nil_iff]
              intro a ha
              have := hdx a ha
              simp; omega
            rw [h3]; simp
          · rw [lineAt_snoc_gt _ _ _ (by simp only; omega), ← hT]
            have hax : a ∈ L := by
              rcases List.mem_append.mp ha with h | h
              · exact h
              · rcases List.mem_singleton.mp h; omega
            rw [specLine_before L c x (by omega) ⟨a, hax, hx⟩, B.line x ⟨a, hax, hx⟩]
        · intro c' hc'
          obtain ⟨l', t, h1⟩ := B.head c' (hhead c' hc')
          rw [hb, ← hT, h1]
          exact ⟨l', t ++ [_], rfl⟩
        · intro a ha
          rw [hb] at ha
          rcases List.mem_append.mp ha with h | h
          · exact hge a h
          · rcases List.mem_singleton.mp h; simp

theorem addLine_append (o t : List LineAddr) (x l : Nat) (h : t ≠ []) : addLine (o ++ t) x l false = o ++ addLine t x l false := by
  rcases nil_or_snoc t with h' | ⟨L, b, rfl⟩
  · exact absurd h' h
  · rw [← List.append_assoc]
    unfold addLine
    simp only [List.getLast?_concat, Bool.false_eq_true, if_false, List.dropLast_concat]
    repeat' split
    all_goals simp

theorem addLine_force (o : List LineAddr) (x l : Nat) : addLine o x l true = o ++ [⟨x, l⟩] := by
  unfold addLine
  cases h : o.getLast? with
  | none => rw [List.getLast?_eq_none_iff] at h; subst h; rfl
  | some last => simp

theorem trim_append (o t : List LineAddr) (n : Nat) (h : t ≠ []) : trimLines n (o ++ t) = o ++ trimLines n t := by
  rcases nil_or_snoc t with h' | ⟨L, b, rfl⟩
  · exact absurd h' h
  · rw [← List.append_assoc]
    unfold trimLines
    simp only [List.getLast?_concat, List.dropLast_concat]
    split <;> simp

structure Tab (cur s : Nat) (calls : List (Nat × Nat)) (t : List LineAddr) : Prop where
  eq : t = build s calls
  start : s ≤ cur
  le : ∀ c ∈ calls, c.1 ≤ cur - s
  sorted : Sorted calls

def Rel : List LineAddr → Nat → List (Nat × Nat) → List (Nat × List (Nat × Nat)) → Prop
  | _, _, [], [] => True
  | buf, cur, (s, a) :: fs, (s', calls) :: ss => s = s' ∧ a ≤ buf.length ∧ Tab cur s calls (buf.drop a) ∧ (calls = [] → a = 0) ∧ Rel (buf.take a) s fs ss
  | _, _, _, _ => False

theorem build_shift (s : Nat) (calls : List (Nat × Nat)) : build s calls = (build 0 calls).map fun a => ⟨s + a.offs, a.line⟩ := by
  suffices h : ∀ t : List LineAddr, calls.foldl (fun t c => addLine t (s + c.1) c.2 false) (t.map fun a => ⟨s + a.offs, a.line⟩) =
      (calls.foldl (fun t c => addLine t (0 + c.1) c.2 false) t).map fun a => ⟨s + a.offs, a.line⟩ by
    have := h []
    simpa [build] using this
  induction calls with
  | nil => intro t; rfl
  | cons c calls ih =>
    intro t
    simp only [List.foldl_cons]
    rw [← ih]
    congr 1
    unfold addLine
    rw [List.getLast?_map]
    cases h : t.getLast? with
    | none => simp
    | some last =>
      simp only [Option.map_some, Bool.false_eq_true, if_false, Nat.zero_add]
      by_cases h1 : last.offs = c.1
      · rw [if_pos h1, if_pos (by omega)]
        split
        · simp [List.map_dropLast]
        · rfl
      · rw [if_neg h1, if_neg (by omega)]; simp

/-- What is true of a finished function. -/
def DoneOk (a : Nat × List LineAddr) (b : Nat × List (Nat × Nat)) : Prop :=
  a.1 = b.1 ∧ a.2 = trimLines b.1 (build 0 b.2) ∧ (∀ c ∈ b.2, c.1 ≤ b.1) ∧ Sorted b.2

def AllDone : List (Nat × List LineAddr) → List (Nat × List (Nat × Nat)) → Prop
  | [], [] => True
  | a :: l, b :: m => DoneOk a b ∧ AllDone l m
  | _, _ => False

theorem allDone_snoc {l : List (Nat × List LineAddr)} {m : List (Nat × List (Nat × Nat))} {a b} (h : AllDone l m) (hd : DoneOk a b) :
    AllDone (l ++ [a]) (m ++ [b]) := by
  induction l generalizing m with
  | nil =>
    cases m with
    | nil => exact ⟨hd, trivial⟩
    | cons b m => exact h.elim
  | cons x l ih =>
    cases m with
    | nil => exact h.elim
    | cons y m => exact ⟨h.1, ih h.2⟩

theorem run_rel (es : List GenEv) : ∀ (g g' : Gen) (s : Spec), g.cur = s.cur → Rel g.buf g.cur g.frames s.funs → AllDone g.done s.done → g.run es = some g' →
    AllDone g'.done (s.run es).done := by
  induction es with
  | nil =>
    intro g g' s _ _ hd h
    simp only [Gen.run, Option.some.injEq] at h; subst h; exact hd
  | cons e es ih =>
    intro g g' s hc hr hd h
    unfold Gen.run at h
    cases hst : g.step e with
    | none => rw [hst] at h; cases h
    | some g1 =>
      rw [hst] at h
      refine ih g1 g' (s.step e) ?_ ?_ ?_ h
      all_goals
        obtain ⟨cur, buf, frames, done⟩ := g
        obtain ⟨scur, funs, sdone⟩ := s
        simp only at hc hr hd
        subst hc
      · -- offset
        cases e with
        | line l =>
          simp only [Gen.step, Option.some.injEq] at hst; subst hst
          cases funs with
          | nil => rfl
          | cons f fs => rfl
        | emit n => simp only [Gen.step, Option.some.injEq] at hst; subst hst; rfl
        | enter l => simp only [Gen.step, Option.some.injEq] at hst; subst hst; rfl
        | leave =>
          cases frames with
          | nil => simp [Gen.step] at hst
          | cons f fs =>
            obtain ⟨s0, a⟩ := f
            cases funs with
            | nil => exact hr.elim
            | cons f' ss =>
              obtain ⟨s', calls⟩ := f'
              obtain ⟨rfl, _⟩ := hr
              simp only [Gen.step, Option.some.injEq] at hst; subst hst; rfl
      · -- tables
        cases e with
        | line l =>
          simp only [Gen.step, Option.some.injEq] at hst; subst hst
          cases frames with
          | nil =>
            cases funs with
            | nil => trivial
            | cons f fs => exact hr.elim
          | cons f fs =>
            obtain ⟨s0, a⟩ := f
            cases funs with
            | nil => exact hr.elim
            | cons f' ss =>
              obtain ⟨s', calls⟩ := f'
              obtain ⟨rfl, ha, ht, h0, hrest⟩ := hr
              simp only [Spec.step]
              have hkey : addLine buf cur l false = buf.take a ++ addLine (buf.drop a) cur l false := by
                by_cases hn : buf.drop a = []
                · have hcn : calls = [] := by
                    apply Decidable.byContradiction
                    intro hcn
                    exact build_ne_nil s0 calls hcn (by rw [← ht.eq]; exact hn)
                  have := h0 hcn
                  subst this
                  simp
                · have := addLine_append (buf.take a) (buf.drop a) cur l hn
                  rw [List.take_append_drop] at this
                  exact this
              have htl : (buf.take a).length = a := by simp; omega
              refine ⟨rfl, ?_, ⟨?_, ht.start, ?_, ?_⟩, by simp, ?_⟩
              · rw [hkey, List.length_append, htl]; omega
              · rw [hkey, List.drop_append, List.drop_eq_nil_of_le (by omega), htl, List.nil_append, Nat.sub_self, List.drop_zero, build_snoc, ht.eq]
                congr 1
                have := ht.start
                simp only; omega
              · intro c hc
                rcases List.mem_append.mp hc with hc | hc
                · exact ht.le c hc
                · rcases List.mem_singleton.mp hc; exact Nat.le_refl _
              · unfold Sorted
                rw [List.pairwise_append]
                refine ⟨ht.sorted, by simp, ?_⟩
                intro x hx y hy
                rcases List.mem_singleton.mp hy
                exact ht.le x hx
              · rw [hkey, List.take_append, htl, Nat.sub_self, List.take_zero, List.append_nil, List.take_take, Nat.min_self]
                exact hrest
        | emit n =>
          simp only [Gen.step, Option.some.injEq] at hst; subst hst
          cases frames with
          | nil =>
            cases funs with
            | nil => trivial
            | cons f fs => exact hr.elim
          | cons f fs =>
            obtain ⟨s0, a⟩ := f
            cases funs with
            | nil => exact hr.elim
            | cons f' ss =>
              obtain ⟨s', calls⟩ := f'
              obtain ⟨rfl, ha, ht, h0, hrest⟩ := hr
              refine ⟨rfl, ha, ⟨ht.eq, by have := ht.start; simp only; omega, ?_, ht.sorted⟩, h0, hrest⟩
              intro c hc
              have := ht.le c hc
              simp only; omega
        | enter l =>
          simp only [Gen.step, Option.some.injEq] at hst; subst hst
          simp only [Spec.step]
          rw [addLine_force]
          refine ⟨rfl, by simp, ⟨?_, Nat.le_refl _, ?_, ?_⟩, by simp, ?_⟩
          · simp [build, addLine]
          · intro c hc; rcases List.mem_singleton.mp hc; exact Nat.zero_le _
          · simp [Sorted]
          · rw [List.take_append]; simpa using hr
        | leave =>
          cases frames with
          | nil => simp [Gen.step] at hst
          | cons f fs =>
            obtain ⟨s0, a⟩ := f
            cases funs with
            | nil => exact hr.elim
            | cons f' ss =>
              obtain ⟨s', calls⟩ := f'
              obtain ⟨rfl, ha, ht, h0, hrest⟩ := hr
              simp only [Gen.step, Option.some.injEq] at hst; subst hst
              simp only [Spec.step]
              by_cases hn : buf.drop a = []
              · have hcn : calls = [] := by
                  apply Decidable.byContradiction
                  intro hcn
                  exact build_ne_nil s0 calls hcn (by rw [← ht.eq]; exact hn)
                have := h0 hcn
                subst this
                simpa using hrest
              · have := trim_append (buf.take a) (buf.drop a) cur hn
                rw [List.take_append_drop] at this
                have htl : (buf.take a).length = a := by simp; omega
                rw [this, List.take_append, htl, Nat.sub_self, List.take_zero, List.append_nil, List.take_take, Nat.min_self]
                exact hrest
      · -- finished functions
        cases e with
        | line l =>
          simp only [Gen.step, Option.some.injEq] at hst; subst hst
          cases funs with
          | nil => exact hd
          | cons f fs => exact hd
        | emit n => simp only [Gen.step, Option.some.injEq] at hst; subst hst; exact hd
        | enter l => simp only [Gen.step, Option.some.injEq] at hst; subst hst; exact hd
        | leave =>
          cases frames with
          | nil => simp [Gen.step] at hst
          | cons f fs =>
            obtain ⟨s0, a⟩ := f
            cases funs with
            | nil => exact hr.elim
            | cons f' ss =>
              obtain ⟨s', calls⟩ := f'
              obtain ⟨rfl, ha, ht, h0, hrest⟩ := hr
              simp only [Gen.step, Option.some.injEq] at hst; subst hst
              simp only [Spec.step]
              refine allDone_snoc hd ⟨rfl, ?_, ht.le, ht.sorted⟩
              simp only
              have htl : (buf.take a).length = a := by simp; omega
              have hdrop : (trimLines cur buf).drop a = trimLines cur (buf.drop a) := by
                by_cases hn : buf.drop a = []
                · have hcn : calls = [] := by
                    apply Decidable.byContradiction
                    intro hcn
                    exact build_ne_nil s0 calls hcn (by rw [← ht.eq]; exact hn)
                  have := h0 hcn
                  subst this
                  simp
                · have := trim_append (buf.take a) (buf.drop a) cur hn
                  rw [List.take_append_drop] at this
                  rw [this, List.drop_append, htl, Nat.sub_self, List.drop_zero, List.drop_eq_nil_of_le (by omega), List.nil_append]
              rw [hdrop, ht.eq, build_shift]
              have hst := ht.start
              generalize build 0 calls = T
              rcases nil_or_snoc T with h' | ⟨L, b, rfl⟩
              · subst h'; rfl
              · unfold trimLines
                rw [List.map_append, List.map_singleton]
                simp only [List.getLast?_concat, List.dropLast_concat]
                by_cases hbx : b.offs = cur - s0
                · rw [if_pos hbx, if_pos (by omega)]
                  simp only [List.map_map]
                  apply (List.map_congr_left _).trans (List.map_id _)
                  intro x _; simp
                · rw [if_neg hbx, if_neg (by omega)]
                  rw [← List.map_singleton (f := fun a : LineAddr => (⟨s0 + a.offs, a.line⟩ : LineAddr)), ← List.map_append, List.map_map]
                  apply (List.map_congr_left _).trans (List.map_id _)
                  intro x _; simp

/-- **C50**, for tables made by the compiler. Take any course of generation of code of a module, with functions nested in any way. For every
finished function, whose first note is at its start (which is so for every function other than the module itself, and for the module unless it
has no statements), and for every offset in it, the line found is the greatest one noted at the last offset at or before it. -/
theorem C50_compiled (es : List GenEv) (g : Gen) (h : Gen.init.run es = some g) (k size : Nat) (table : List LineAddr) (hk : g.done[k]? = some (size, table)) :
    ∃ calls, ((Spec.init.run es).done)[k]? = some (size, calls) ∧ (calls = [] → ∀ x, addrToLine table x = some 0) ∧
      (∀ l rest, calls = (0, l) :: rest → ∀ x, x < size → addrToLine table x = some (specLine calls x)) := by
  have hall := run_rel es Gen.init g Spec.init rfl ⟨rfl, by simp [Gen.init], ⟨rfl, Nat.le_refl _, by simp, by simp [Sorted]⟩, fun _ => rfl, trivial⟩ trivial h
  generalize (Spec.init.run es).done = m at *
  obtain ⟨calls, hm, hdone⟩ : ∃ calls, m[k]? = some (size, calls) ∧ DoneOk (size, table) (size, calls) := by
    generalize g.done = l at *
    clear h
    induction l generalizing m k with
    | nil => simp at hk
    | cons a l ih =>
      cases m with
      | nil => exact hall.elim
      | cons b m =>
        cases k with
        | zero =>
          simp only [List.getElem?_cons_zero, Option.some.injEq] at hk
          subst hk
          obtain ⟨hdo, _⟩ := hall
          obtain ⟨bs, bc⟩ := b
          have : size = bs := hdo.1
          subst this
          exact ⟨bc, rfl, hdo⟩
        | succ k => exact ih k m (by simpa using hk) hall.2
  refine ⟨calls, hm, ?_, ?_⟩
  · rintro rfl x
    have : table = [] := hdone.2.1
    subst this
    rfl
  · rintro l rest rfl x hx
    obtain ⟨_, ht, hle, hsorted⟩ := hdone
    simp only at ht hle hsorted
    have B := built 0 _ _ rfl hsorted
    have hline := B.line x ⟨(0, l), by simp, Nat.zero_le _⟩
    obtain ⟨l', t, hhd⟩ := B.head (0, l) rfl
    rw [Nat.zero_add] at hline
    simp only [Nat.zero_add] at hhd
    -- the table is the one built, possibly without a last entry behind the code
    obtain ⟨t', hT, hl'⟩ : ∃ t', table = ⟨0, l'⟩ :: t' ∧ lineAt table x = lineAt (build 0 ((0, l) :: rest)) x ∧
        table.Pairwise (fun a b => a.offs < b.offs) := by
      have hst := B.strict
      rw [ht]
      rcases nil_or_snoc (build 0 ((0, l) :: rest)) with h' | ⟨L, b, hb⟩
      · rw [h'] at hhd; cases hhd
      · rw [hb] at hst hhd ⊢
        unfold trimLines
        simp only [List.getLast?_concat, List.dropLast_concat]
        by_cases hbs : b.offs = size
        · rw [if_pos hbs]
          cases L with
          | nil =>
            simp only [List.nil_append, List.cons.injEq] at hhd
            rw [hhd.1] at hbs; simp only at hbs; omega
          | cons a L =>
            simp only [List.cons_append, List.cons.injEq] at hhd
            exact ⟨L, by rw [hhd.1], (lineAt_snoc_gt _ _ _ (by omega)).symm, (List.pairwise_append.mp hst).1⟩
        · rw [if_neg hbs]
          exact ⟨t, hhd, rfl, hst⟩
    obtain ⟨r, hr1, hr2⟩ := (C50_lookup table x hl'.2).2 ⟨0, l'⟩ (by rw [hT]; rfl) (Nat.zero_le _)
    rw [hr2, ← hr1, hl'.1, hline]

/-- **C50**, after relaxation of jumps: with `at_` the move of instructions from `C30_jumps_land`, the line of every instruction stays as it was. -/
theorem C50_relaxed (ops : List (Nat × Nat)) (table : List LineAddr) (hs : table.Pairwise fun a b => a.offs < b.offs) (x : Nat) (a : LineAddr)
    (ha : table.head? = some a) (hx : a.offs ≤ x) :
    addrToLine (table.map fun a => ⟨place ops a.offs, a.line⟩) (place ops x) = addrToLine table x := by
  have hmono : ∀ y z, place ops y < place ops z ↔ y < z := by intro y z; rw [place_eq, place_eq]; exact sh_lt_iff ops y z
  have hs' : (table.map fun a => (⟨place ops a.offs, a.line⟩ : LineAddr)).Pairwise fun a b => a.offs < b.offs := by
    rw [List.pairwise_map]
    exact hs.imp fun {a b} h => (hmono a.offs b.offs).mpr h
  have hle : ∀ y z, place ops y ≤ place ops z ↔ y ≤ z := by intro y z; have := hmono z y; omega
  obtain ⟨l, h1, h2⟩ := (C50_lookup table x hs).2 a ha hx
  obtain ⟨l', h3, h4⟩ := (C50_lookup _ (place ops x) hs').2 ⟨place ops a.offs, a.line⟩ (by simp [ha]) ((hle _ _).mpr hx)
  rw [h2, h4, ← h3, ← h1]
  unfold lineAt
  rw [List.filter_map, List.getLast?_map, Option.map_map]
  have : ((fun a : LineAddr => decide (a.offs ≤ place ops x)) ∘ fun a : LineAddr => (⟨place ops a.offs, a.line⟩ : LineAddr)) =
      fun a => decide (a.offs ≤ x) := by
    funext a; simp only [Function.comp]; exact decide_eq_decide.mpr (hle _ _)
  rw [this]; rfl

/-- Example: a module with a function in the middle of a statement; two lines are noted at the start of its second statement. -/
def exampleRun : List GenEv :=
  [.line 1, .emit 3, .line 2, .enter 2, .line 3, .emit 4, .leave, .line 5, .emit 6, .leave]

example : (Gen.init.run exampleRun).map (·.done) = some [(4, [⟨0, 3⟩]), (9, [⟨0, 1⟩, ⟨3, 5⟩])] := rfl

example : addrToLine [⟨0, 1⟩, ⟨3, 5⟩] 2 = some 1 ∧ addrToLine [⟨0, 1⟩, ⟨3, 5⟩] 8 = some 5 ∧
    (Spec.init.run exampleRun).done = [(4, [(0, 2), (0, 3)]), (9, [(0, 1), (3, 2), (3, 5)])] ∧ specLine [(0, 1), (3, 2), (3, 5)] 8 = 5 :=
  ⟨by decide, by decide, rfl, by decide⟩

end Verif.Props.C50
