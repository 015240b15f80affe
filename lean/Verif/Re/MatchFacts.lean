import Verif.Re.Code

/-!
# The matcher finds the preferred match

Proof that running the words of a regular expression gives the first of all
matches in the order of preference.
-/

namespace Verif.Re

open Spec

/-- The interpreter comes to a result. -/
def Ev (E : Env) (p : Nat) (c : Cfg) (o : Out) : Prop := ∃ n, E.run p n c = some o

theorem Ev.next {E : Env} {p : Nat} {c c' : Cfg} {o : Out} (h : E.step c = .next c') (h' : Ev E p c' o) :
    Ev E p c o := by
  obtain ⟨n, hn⟩ := h'
  exact ⟨n + 1, by simp only [Env.run, h]; exact hn⟩

/-- The result after the current possibility has failed. -/
def EvBack (E : Env) (p : Nat) (stack : List Item) (o : Out) : Prop :=
  match stack with
  | [] => o = .void
  | it :: st => Ev E p ⟨it.instr, E.hi - it.offs, it.slots, st⟩ o

theorem Ev.back {E : Env} {p : Nat} {c : Cfg} {o : Out} (h : E.step c = E.back c.stack) (h' : EvBack E p c.stack o) :
    Ev E p c o := by
  unfold Env.back at h
  unfold EvBack at h'
  cases hs : c.stack with
  | nil =>
    rw [hs] at h h'
    exact ⟨1, by simp [Env.run, h, h']⟩
  | cons it st =>
    rw [hs] at h h'
    exact Ev.next h h'

/-- The pair of places as it is shown in a match object: 65535 cannot be shown. -/
def seen : Option (Nat × Nat) → Option (Nat × Nat)
  | some (b, e) => if b ≠ 65535 ∧ e ≠ 65535 then some (b, e) else none
  | none => none

/-- The first of several states as a result. -/
def pick (E : Env) (p : Nat) (l : List State) : Out :=
  match l.head? with
  | some st => .found ⟨p, st.pos, (List.range E.prog.groups).map fun i => seen (st.groups i)⟩
  | none => .void

/-- The state of the matcher shows a state of the specification.  `opens` has the
groups which have begun and not ended, `held` the counts of the repetitions which
are going on. -/
structure Rel (E : Env) (opens held : Nat → Option Nat) (st : State) (pos : Nat) (slots : List Nat) : Prop where
  pos_eq : pos = st.pos
  pos_le : st.pos ≤ E.hi
  len : slots.length = E.prog.counts + 2 * E.prog.groups
  grp : ∀ i, i < E.prog.groups → opens i = none → foundGroup E.prog slots i = seen (st.groups i)
  opn : ∀ i, i < E.prog.groups → ∀ p, opens i = some p → slots.getD (E.prog.counts + i * 2) 0 = p
  hld : ∀ i, i < E.prog.counts → ∀ n, held i = some n → slots.getD i 0 = n

/-- Every state at `ip` comes to the first of the states given by `f`. -/
def Cont (E : Env) (p ip : Nat) (opens held : Nat → Option Nat) (f : State → List State) : Prop :=
  ∀ st pos slots stack l, Rel E opens held st pos slots → EvBack E p stack (pick E p l) →
    Ev E p ⟨ip, pos, slots, stack⟩ (pick E p (f st ++ l))

/-- The words at `ip`, `len` in number, make the states `F`. -/
def Block (E : Env) (p ip len : Nat) (opens held : Nat → Option Nat) (F : State → List State) : Prop :=
  ∀ f, Cont E p (ip + len) opens held f → Cont E p ip opens held fun st => (F st).flatMap f

theorem Block.seq {E : Env} {p ip a b : Nat} {opens held : Nat → Option Nat} {F G : State → List State}
    (h1 : Block E p ip a opens held F) (h2 : Block E p (ip + a) b opens held G) :
    Block E p ip (a + b) opens held fun st => (F st).flatMap G := by
  intro f hf
  have := h1 _ (h2 f (by rw [Nat.add_assoc]; exact hf))
  simpa only [List.flatMap_assoc] using this

/-- The words at a place of the code. -/
def At (E : Env) (ip : Nat) (w : List Nat) : Prop := ∃ rest, E.prog.code.drop ip = w ++ rest

theorem At.left {E : Env} {ip : Nat} {a b : List Nat} (h : At E ip (a ++ b)) : At E ip a := by
  obtain ⟨r, h⟩ := h
  exact ⟨b ++ r, by rw [h, List.append_assoc]⟩

theorem At.right {E : Env} {ip : Nat} {a b : List Nat} (h : At E ip (a ++ b)) : At E (ip + a.length) b := by
  obtain ⟨r, h⟩ := h
  refine ⟨r, ?_⟩
  rw [← List.drop_drop, h, List.append_assoc, List.drop_left]

theorem At.le {E : Env} {ip : Nat} {w : List Nat} (h : At E ip w) (hw : w ≠ []) :
    ip + w.length ≤ E.prog.code.length := by
  obtain ⟨r, h⟩ := h
  have := congrArg List.length h
  simp only [List.length_drop, List.length_append] at this
  have : 0 < w.length := List.length_pos_iff.2 hw
  omega

theorem step_at {E : Env} {w : List Nat} {i : Instr} {c : Cfg} (h : At E c.ip w) (hw : w ≠ [])
    (hd : ∀ rest, decode (w ++ rest) = some i) : E.step c = E.exec c i := by
  have hle := h.le hw
  have : 0 < w.length := List.length_pos_iff.2 hw
  obtain ⟨r, hr⟩ := h
  unfold Env.step
  rw [if_pos (by omega), hr, hd]

theorem Rel.move {E : Env} {opens held : Nat → Option Nat} {st : State} {pos : Nat} {slots : List Nat}
    (h : Rel E opens held st pos slots) {j : Nat} (hj : j ≤ E.hi) : Rel E opens held { st with pos := j } j slots :=
  ⟨rfl, hj, h.len, h.grp, h.opn, h.hld⟩

/-! ### Atoms -/

/-- What the specification is applied to. -/
def Env.subject (E : Env) : Subject := ⟨E.str, E.lo, E.hi⟩

theorem peek_at (E : Env) (i : Nat) : E.subject.at i = E.peek i := rfl

/-- An atom as a function on states. -/
def atomStates (S : Subject) (a : Atom) (st : State) : List State :=
  match a.go S st.pos with
  | some j => [{ st with pos := j }]
  | none => []

/-- What an instruction which only looks at the string does. -/
theorem block_test {E : Env} {p ip chars : Nat} {opens held : Nat → Option Nat} {w : List Nat} (i : Instr)
    {a : Atom} (hat : At E ip w) (hw : w ≠ [])
    (hd : ∀ rest, decode (w ++ rest) = some i) (ok : Nat → Bool)
    (hex : ∀ c, E.exec c i = E.test c (ok c.pos) w.length chars)
    (hF : ∀ i, a.go E.subject i = if ok i = true then some (i + chars) else none)
    (hb : ∀ i, i ≤ E.hi → ok i = true → i + chars ≤ E.hi) :
    Block E p ip w.length opens held (atomStates E.subject a) := by
  intro f hf st pos slots stack l rel hback
  have hpos := rel.pos_eq
  subst hpos
  have hs := step_at (c := ⟨ip, st.pos, slots, stack⟩) hat hw hd
  rw [hex] at hs
  unfold atomStates
  simp only
  rw [hF]
  unfold Env.test at hs
  by_cases hok : ok st.pos = true
  · rw [if_pos hok]
    rw [if_pos hok] at hs
    refine Ev.next hs ?_
    simp only [List.flatMap_cons, List.flatMap_nil, List.append_nil]
    exact hf _ _ _ _ _ (rel.move (hb _ rel.pos_le hok)) hback
  · rw [if_neg hok]
    rw [if_neg hok] at hs
    exact Ev.back hs hback

theorem peek_some {E : Env} {i x : Nat} (h : E.peek i = some x) : i < E.hi := by
  unfold Env.peek at h
  split at h
  · assumption
  · cases h

theorem block_char {E : Env} {p ip : Nat} {opens held : Nat → Option Nat} {a : Atom} {c : Nat}
    (hat : At E ip [0, c]) (hgo : ∀ i, a.go E.subject i = if E.subject.at i = some c then some (i + 1) else none) :
    Block E p ip 2 opens held (atomStates E.subject a) := by
  refine block_test (w := [0, c]) (.char c) hat (by simp) (fun _ => rfl) (chars := 1)
    (fun j => decide (E.peek j = some c)) (fun _ => rfl) ?_ ?_
  · intro i
    rw [hgo, peek_at]
    simp
  · intro i _ h
    have := peek_some (of_decide_eq_true h); omega

theorem block_class {E : Env} {p ip : Nat} {opens held : Nat → Option Nat} {a : Atom} {neg : Bool} {id : Nat}
    {P : Nat → Bool} (hat : At E ip [negInstr neg, id]) (hP : ClassIs E.prog.cls id P)
    (hgo : ∀ i, a.go E.subject i = match E.subject.at i with
      | some c => if P c != neg then some (i + 1) else none
      | none => none) :
    Block E p ip 2 opens held (atomStates E.subject a) := by
  obtain ⟨rs, h1, h2⟩ := hP
  refine block_test (w := [negInstr neg, id]) (.cls neg id) hat (by simp) (fun _ => by cases neg <;> rfl)
    (chars := 1) (fun j => match E.peek j with
      | some c => P c != neg
      | none => false) ?_ ?_ ?_
  · intro c
    simp only [Env.exec, h1, Option.bind_some, h2]
    cases hc : E.peek c.pos with
    | none => simp [Env.test]
    | some x => simp
  · intro i
    rw [hgo, peek_at]
    cases hc : E.peek i with
    | none => simp
    | some x => rfl
  · intro i _ h
    cases hc : E.peek i with
    | none => simp [hc] at h
    | some x => have := peek_some hc; omega

theorem wordChar_eq (c : Nat) : wordChar c = isWordChar c := by
  rw [Bool.eq_iff_iff]
  simp only [wordChar, isWordChar, Bool.or_eq_true, Bool.and_eq_true, decide_eq_true_eq, beq_iff_eq]
  omega

theorem word_eq (c : Option Nat) : Spec.word c = isWordOpt c := by
  cases c <;> simp [Spec.word, isWordOpt, wordChar_eq]

theorem boundary_eq (b : Boundary) (x y : Bool) :
    decide (boundaryKind b &&& boundaryState x y ≠ 0) = b.holds x y := by
  cases b <;> cases x <;> cases y <;> rfl

theorem block_atom {E : Env} {p ip : Nat} {opens held : Nat → Option Nat} {a : Atom} {w : List Nat}
    (hc : AtomCode E.prog.cls a w) (hat : At E ip w) :
    Block E p ip w.length opens held (atomStates E.subject a) := by
  cases a with
  | char c =>
    rcases hc with ⟨h, rfl⟩ | ⟨h, rfl⟩
    · exact block_char hat fun _ => rfl
    · refine block_test (w := [1, c / 65536, c % 65536]) (.char32 (c / 65536) (c % 65536)) hat (by simp)
        (fun _ => rfl) (chars := 1) (fun j => decide (E.peek j = some c)) ?_ ?_ ?_
      · intro c'
        have : c / 65536 * 65536 + c % 65536 = c := by omega
        simp only [Env.exec, this]
        rfl
      · intro i
        by_cases h : E.peek i = some c <;> simp [Atom.go, peek_at, h]
      · intro i _ h
        have := peek_some (of_decide_eq_true h); omega
  | escaped c => subst hc; exact block_char hat fun _ => rfl
  | control c => subst hc; exact block_char hat fun _ => rfl
  | any =>
    subst hc
    refine block_test (w := [2]) .any hat (by simp) (fun _ => rfl) (chars := 1)
      (fun j => (E.peek j).isSome) (fun _ => rfl) (fun _ => rfl) ?_
    intro i _ h
    obtain ⟨x, hx⟩ := Option.isSome_iff_exists.1 h
    have := peek_some hx; omega
  | lineBegin =>
    subst hc
    refine block_test (w := [5]) .lineBegin hat (by simp) (fun _ => rfl) (chars := 0)
      (fun j => !decide (E.lo < j) || decide (E.str[j - 1]? = some 13) || decide (E.str[j - 1]? = some 10))
      (fun _ => rfl) ?_ (fun i h _ => h)
    intro i
    have : (decide (i ≤ E.subject.lo) || lineBreak (E.subject.before i)) =
        (!decide (E.lo < i) || decide (E.str[i - 1]? = some 13) || decide (E.str[i - 1]? = some 10)) := by
      by_cases h : E.lo < i
      · have h0 : 0 < i := by omega
        have h1 : ¬ i ≤ E.lo := by omega
        rw [Bool.eq_iff_iff]
        simp only [Env.subject, Subject.before, h0, if_true, lineBreak, h, h1, decide_false, Bool.false_or, decide_true,
          Bool.not_true, Bool.or_eq_true, beq_iff_eq, decide_eq_true_eq]
        exact Or.comm
      · have h1 : i ≤ E.lo := by omega
        simp [Env.subject, h, h1]
    simp only [Atom.go, Nat.add_zero]
    simp only [this]
  | lineEnd =>
    subst hc
    refine block_test (w := [6]) .lineEnd hat (by simp) (fun _ => rfl) (chars := 0)
      (fun j => decide (E.peek j = none) || decide (E.peek j = some 13) || decide (E.peek j = some 10))
      (fun _ => rfl) ?_ (fun i h _ => h)
    intro i
    have : (E.peek i == none || lineBreak (E.peek i)) =
        (decide (E.peek i = none) || decide (E.peek i = some 13) || decide (E.peek i = some 10)) := by
      rw [Bool.eq_iff_iff]
      simp only [lineBreak, Bool.or_eq_true, beq_iff_eq, decide_eq_true_eq]
      rw [or_assoc, or_comm (a := E.peek i = some 10)]
    simp only [Atom.go, Nat.add_zero, peek_at]
    simp only [this]
  | boundary b =>
    subst hc
    refine block_test (w := [7, boundaryKind b]) (.boundary (boundaryKind b)) hat (by simp) (fun _ => rfl)
      (chars := 0) (fun j => b.holds (if 0 < j then isWordOpt E.str[j - 1]? else false) (isWordOpt (E.peek j)))
      ?_ ?_ (fun i h _ => h)
    · intro c
      simp only [Env.exec, boundary_eq]
      rfl
    · intro i
      have : isWordOpt (E.subject.before i) = if 0 < i then isWordOpt E.str[i - 1]? else false := by
        unfold Subject.before Env.subject
        by_cases h : 0 < i <;> simp [h, isWordOpt]
      simp only [Atom.go, peek_at, word_eq, Nat.add_zero]
      simp only [this]
  | digit neg =>
    obtain ⟨id, rfl, hP⟩ := hc
    exact block_class hat hP fun i => rfl
  | word neg =>
    obtain ⟨id, rfl, hP⟩ := hc
    exact block_class hat hP fun i => rfl
  | cls neg items =>
    obtain ⟨id, rfl, hP⟩ := hc
    exact block_class hat hP fun i => rfl

end Verif.Re
