import Verif.Lexer.Operator
/-! C14: operators are read by maximal munch. -/
namespace Verif.Lexer

/-- The operators of the language and their meaning. -/
def Spec.operators : List (String × Op) := [
  ("!", .lognot), ("!=", .ne), ("%", .mod), ("%=", .setmod), ("&", .and), ("&&", .logand), ("&=", .setand),
  ("*", .mul), ("*=", .setmul), ("+", .add), ("+=", .setadd), ("-", .sub), ("-=", .setsub), ("->", .arrow),
  (".", .dot), ("...", .more), ("/", .div), ("/=", .setdiv), ("<", .lt), ("<<", .shl), ("<<=", .setshl),
  ("<=", .le), ("=", .set), ("==", .eq), ("=>", .lambda), (">", .gt), (">=", .ge), (">>", .shr),
  (">>=", .setshr), (">>>", .shru), (">>>=", .setshru), ("?", .logtri), ("^", .xor), ("^=", .setxor),
  ("|", .or), ("|=", .setor), ("||", .logor), ("~", .not)]

/-- Longest match: the token is an operator spelled at the front of the input, and no operator spelled there is longer. -/
def Spec.Longest (input : List Nat) (r : OpRes) : Prop :=
  ∃ s op, (s, op) ∈ Spec.operators ∧ bytes s <+: input ∧ r = .tok op (bytes s).length ∧
    ∀ s' op', (s', op') ∈ Spec.operators → bytes s' <+: input → (bytes s').length ≤ (bytes s).length

def longestB (input : List Nat) (r : OpRes) : Bool :=
  Spec.operators.any fun e => (bytes e.1).isPrefixOf input && r == .tok e.2 (bytes e.1).length &&
    Spec.operators.all fun e' => !(bytes e'.1).isPrefixOf input || decide ((bytes e'.1).length ≤ (bytes e.1).length)

theorem longest_of_bool {input : List Nat} {r : OpRes} (h : longestB input r = true) : Spec.Longest input r := by
  simp only [longestB, List.any_eq_true, Bool.and_eq_true, List.all_eq_true, Bool.or_eq_true,
    Bool.not_eq_true', decide_eq_true_eq, beq_iff_eq, List.isPrefixOf_iff_prefix] at h
  obtain ⟨⟨s, op⟩, hm, ⟨hp, hr⟩, hall⟩ := h
  refine ⟨s, op, hm, hp, hr, fun s' op' hm' hp' => ?_⟩
  rcases hall (s', op') hm' with h | h
  · rw [← List.isPrefixOf_iff_prefix] at hp'
    rw [h] at hp'; cases hp'
  · exact h

/-- The spellings the scanner misreads: a shift operator spelled with `=` in a wrong place. -/
def Spec.misread : List String := [">=>", ">==", ">>=="]

theorem opLoop_stop (x : Nat) (hx : isOpByte x = false) (r : List Nat) : ∀ (u : List Nat) g idx,
    opLoop (u ++ x :: r) g idx = opLoop u g idx := by
  intro u
  induction u with
  | nil =>
    intro g idx
    rw [List.nil_append]
    unfold opLoop
    cases g.head? with
    | none => rfl
    | some e =>
      obtain ⟨s, op⟩ := e
      simp only
      cases strAt s idx with
      | none => rfl
      | some cur =>
        simp only
        rw [if_neg (by simp [hx])]
  | cons b u ih =>
    intro g idx
    simp only [List.cons_append]
    unfold opLoop
    cases g.head? with
    | none => rfl
    | some e =>
      obtain ⟨s, op⟩ := e
      simp only
      cases strAt s idx with
      | none => rfl
      | some cur =>
        simp only
        split
        · cases advance b idx g cur with
          | none => rfl
          | some q => obtain ⟨g', c'⟩ := q; simp only [ih]
        · rfl

theorem collect_stop (c x : Nat) (hx : isOpByte x = false) (u r : List Nat) :
    collectOperator c (u ++ x :: r) = collectOperator c u := by
  unfold collectOperator; rw [opLoop_stop x hx r]

theorem split_run (rest : List Nat) : (∀ d ∈ rest, d ∈ opBytes) ∨
    ∃ u x r, rest = u ++ x :: r ∧ isOpByte x = false ∧ ∀ d ∈ u, d ∈ opBytes := by
  induction rest with
  | nil => left; simp
  | cons b rest ih =>
    cases hb : isOpByte b with
    | false => right; exact ⟨[], b, rest, rfl, hb, by simp⟩
    | true =>
      have hb' : b ∈ opBytes := by simpa [isOpByte] using hb
      rcases ih with h | ⟨u, x, r, rfl, hx, hu⟩
      · left; intro d hd
        rcases List.mem_cons.mp hd with rfl | hd
        · exact hb'
        · exact h d hd
      · right
        refine ⟨b :: u, x, r, rfl, hx, ?_⟩
        intro d hd
        rcases List.mem_cons.mp hd with rfl | hd
        · exact hb'
        · exact hu d hd

theorem tails_ops : ∀ e ∈ Spec.operators, ∀ d ∈ (bytes e.1).tail, d ∈ opBytes := by decide +kernel
theorem spell_ne : ∀ e ∈ Spec.operators, bytes e.1 ≠ [] := by decide +kernel

theorem prefix_stop (x : Nat) (hx : isOpByte x = false) : ∀ (s u r : List Nat),
    (∀ d ∈ s, d ∈ opBytes) → (s <+: u ++ x :: r ↔ s <+: u) := by
  intro s
  induction s with
  | nil => intro u r _; simp
  | cons a s ih =>
    intro u r hs
    have ha := hs a (by simp)
    cases u with
    | nil =>
      simp only [List.nil_append, List.cons_prefix_cons, List.prefix_nil]
      constructor
      · rintro ⟨rfl, _⟩
        simp [isOpByte, ha] at hx
      · intro h; cases h
    | cons b u =>
      simp only [List.cons_append, List.cons_prefix_cons]
      rw [ih u r (fun d hd => hs d (by simp [hd]))]

theorem longest_stop (c x : Nat) (hx : isOpByte x = false) (u r : List Nat) (res : OpRes)
    (h : Spec.Longest (c :: u) res) : Spec.Longest (c :: (u ++ x :: r)) res := by
  have key : ∀ s op, (s, op) ∈ Spec.operators → (bytes s <+: c :: (u ++ x :: r) ↔ bytes s <+: c :: u) := by
    intro s op hm
    have h1 := tails_ops _ hm
    have h2 := spell_ne _ hm
    simp only at h1 h2
    cases hb : bytes s with
    | nil => exact absurd hb h2
    | cons a t =>
      rw [hb] at h1
      simp only [List.cons_prefix_cons]
      rw [prefix_stop x hx t u r (by simpa using h1)]
  obtain ⟨s, op, hm, hp, hr, hall⟩ := h
  exact ⟨s, op, hm, (key s op hm).mpr hp, hr, fun s' op' hm' hp' => hall s' op' hm' ((key s' op' hm').mp hp')⟩

set_option hygiene false in
/-- Case split on the next operator byte, closing whatever is decided by evaluation. -/
macro "next_byte" : tactic => `(tactic|
  (rcases run with _ | ⟨d, run⟩
   · rfl
   have hd := h d (List.mem_cons_self)
   replace h := fun x hx => h x (List.mem_cons_of_mem d hx)
   simp only [opBytes, List.mem_cons, List.not_mem_nil, or_false] at hd
   rcases hd with rfl | rfl | rfl | rfl | rfl | rfl | rfl | rfl | rfl | rfl | rfl | rfl | rfl | rfl
   all_goals try rfl))

theorem run_other (c : Nat) (hc : c ∈ [33, 37, 38, 42, 43, 45, 46, 47, 60, 61, 63, 94, 124, 126]) (run : List Nat)
    (h : ∀ d ∈ run, d ∈ opBytes) : longestB (c :: run) (collectOperator c run) = true := by
  simp only [List.mem_cons, List.not_mem_nil, or_false] at hc
  rcases hc with rfl | rfl | rfl | rfl | rfl | rfl | rfl | rfl | rfl | rfl | rfl | rfl | rfl | rfl <;>
    next_byte <;> next_byte <;> next_byte

theorem run_gt (run : List Nat) (h : ∀ d ∈ run, d ∈ opBytes)
    (hbad : ∀ w ∈ Spec.misread, ¬ bytes w <+: 62 :: run) :
    longestB (62 :: run) (collectOperator 62 run) = true := by
  next_byte
  · next_byte
    · exact absurd (show bytes ">==" <+: 62 :: 61 :: 61 :: run from ⟨run, rfl⟩) (hbad _ (by decide))
    · exact absurd (show bytes ">=>" <+: 62 :: 61 :: 62 :: run from ⟨run, rfl⟩) (hbad _ (by decide))
  · next_byte
    · next_byte
      exact absurd (show bytes ">>==" <+: 62 :: 62 :: 61 :: 61 :: run from ⟨run, rfl⟩) (hbad _ (by decide))
    · next_byte
      next_byte

/-- `collect_operator` finds the longest operator. -/
theorem collect_longest (c : Nat) (hc : c ∈ 47 :: opBytes) (rest : List Nat)
    (hbad : ∀ w ∈ Spec.misread, ¬ bytes w <+: c :: rest) :
    Spec.Longest (c :: rest) (collectOperator c rest) := by
  have main : ∀ run, (∀ d ∈ run, d ∈ opBytes) → (∀ w ∈ Spec.misread, ¬ bytes w <+: c :: run) →
      Spec.Longest (c :: run) (collectOperator c run) := by
    intro run hrun hb
    apply longest_of_bool
    by_cases h62 : c = 62
    · subst h62; exact run_gt run hrun hb
    · apply run_other c _ run hrun
      simp only [opBytes, List.mem_cons, List.not_mem_nil, or_false] at hc ⊢
      omega
  rcases split_run rest with h | ⟨u, x, r, rfl, hx, hu⟩
  · exact main rest h hbad
  · rw [collect_stop c x hx]
    apply longest_stop c x hx
    apply main u hu
    intro w hw hp
    apply hbad w hw
    exact hp.trans ⟨x :: r, by simp⟩

/-- **C14 (partial).** Whenever the lexer produces an operator token it is the longest operator spelled at
the front of the input, except for inputs starting with one of the three misread spellings and for a
lone `/` at the end of the input. Missing: those inputs, on which the claim is false (`C14_violated`). -/
theorem C14_maximal_munch_partial (input : List Nat) (r : OpRes) (h : operatorToken input = some r)
    (hslash : input ≠ [47]) (hbad : ∀ w ∈ Spec.misread, ¬ bytes w <+: input) : Spec.Longest input r := by
  cases input with
  | nil => cases h
  | cons c rest =>
    simp only [operatorToken] at h
    split at h
    · rename_i hc
      cases h
      exact collect_longest c (by simpa [isOpByte] using Or.inr hc) rest hbad
    · split at h
      · rename_i hc
        subst hc
        cases rest with
        | nil => exact absurd rfl hslash
        | cons d rest =>
          simp only at h
          split at h
          · cases h
          · cases h
            exact collect_longest 47 (by simp) _ hbad
      · cases h

def isTok : OpRes → Bool | .tok _ _ => true | .oob => false

theorem bad1 (run : List Nat) (h : ∀ d ∈ run, d ∈ opBytes) : isTok (collectOperator 62 (61 :: 61 :: run)) = true := by
  next_byte <;> next_byte
theorem bad2 (run : List Nat) (h : ∀ d ∈ run, d ∈ opBytes) : isTok (collectOperator 62 (61 :: 62 :: run)) = true := by
  next_byte <;> next_byte
theorem bad3 (run : List Nat) (h : ∀ d ∈ run, d ∈ opBytes) : isTok (collectOperator 62 (62 :: 61 :: 61 :: run)) = true := by
  next_byte <;> next_byte

theorem collect_isTok (c : Nat) (hc : c ∈ 47 :: opBytes) (rest : List Nat) : isTok (collectOperator c rest) = true := by
  by_cases hbad : ∀ w ∈ Spec.misread, ¬ bytes w <+: c :: rest
  · obtain ⟨_, _, _, _, hr, _⟩ := collect_longest c hc rest hbad
    rw [hr]; rfl
  · have hb : ∃ w ∈ Spec.misread, bytes w <+: c :: rest := by
      apply Classical.byContradiction
      intro hn; apply hbad; intro w hw hp; exact hn ⟨w, hw, hp⟩
    have run : ∀ u, (∀ d ∈ u, d ∈ opBytes) → (∃ w ∈ Spec.misread, bytes w <+: c :: u) →
        isTok (collectOperator c u) = true := by
      rintro u hu ⟨w, hw, t, ht⟩
      simp only [Spec.misread, List.mem_cons, List.not_mem_nil, or_false] at hw
      rcases hw with rfl | rfl | rfl
      · have e1 : c = 62 := (List.cons.inj ht).1.symm
        have e2 : u = 61 :: 62 :: t := (List.cons.inj ht).2.symm
        subst e1 e2
        exact bad2 t (fun d hd => hu d (by simp [hd]))
      · have e1 : c = 62 := (List.cons.inj ht).1.symm
        have e2 : u = 61 :: 61 :: t := (List.cons.inj ht).2.symm
        subst e1 e2
        exact bad1 t (fun d hd => hu d (by simp [hd]))
      · have e1 : c = 62 := (List.cons.inj ht).1.symm
        have e2 : u = 62 :: 61 :: 61 :: t := (List.cons.inj ht).2.symm
        subst e1 e2
        exact bad3 t (fun d hd => hu d (by simp [hd]))
    rcases split_run rest with h | ⟨u, x, r, rfl, hx, hu⟩
    · exact run rest h hb
    · rw [collect_stop c x hx]
      apply run u hu
      obtain ⟨w, hw, hp⟩ := hb
      have htail : ∀ w ∈ Spec.misread, bytes w ≠ [] ∧ ∀ d ∈ (bytes w).tail, d ∈ opBytes := by decide +kernel
      refine ⟨w, hw, ?_⟩
      obtain ⟨h2, h1⟩ := htail w hw
      cases hb : bytes w with
      | nil => exact absurd hb h2
      | cons a t =>
        rw [hb] at h1 hp
        simp only [List.cons_prefix_cons] at hp ⊢
        rw [prefix_stop x hx t u r (by simpa using h1)] at hp
        exact hp

/-- Memory safety of the scan: for every input, misread ones included, the operator table is never read
past the end of one of its strings. -/
theorem C14_table_reads_in_bounds (input : List Nat) : operatorToken input ≠ some .oob := by
  intro h
  cases input with
  | nil => cases h
  | cons c rest =>
    simp only [operatorToken] at h
    split at h
    · rename_i hc
      have := collect_isTok c (by simpa [isOpByte] using Or.inr hc) rest
      rw [Option.some.inj h] at this; cases this
    · split at h
      · rename_i hc
        subst hc
        cases rest with
        | nil => cases h
        | cons d rest =>
          simp only at h
          split at h
          · cases h
          · have := collect_isTok 47 (by simp) (d :: rest)
            rw [Option.some.inj h] at this; cases this
      · cases h

/-- **C14 violated** on the misread spellings: `>=>` is read as `>>>`, `>==` as `>>=`, `>>==` as `>>>=`, and a
final `/` gets no operator code. -/
theorem C14_violated :
    operatorToken (bytes ">=>") = some (.tok .shru 3) ∧ operatorToken (bytes ">== ") = some (.tok .setshr 3) ∧
    operatorToken (bytes ">>==") = some (.tok .setshru 4) ∧ operatorToken (bytes "/") = some (.tok .none 1) := by
  decide +kernel

example : Spec.Longest (bytes ">>>= 1") (.tok .setshru 4) ∧ Spec.Longest (bytes "..a") (.tok .dot 1) :=
  ⟨longest_of_bool rfl, longest_of_bool rfl⟩
example : operatorToken (bytes "..a") = some (.tok .dot 1) ∧ operatorToken (bytes "<<>") = some (.tok .shl 2) := by
  decide +kernel

end Verif.Lexer
