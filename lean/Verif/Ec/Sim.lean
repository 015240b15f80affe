import Verif.Ec.Spec

/-
  Code and computations: rules by which code can be shown to do what a computation
  says.  `Q` is about the result and the registers, `E` about the registers when
  something is thrown.
-/

namespace Verif.Ec

variable {V W α β : Type} {S : Sem V W}

def Sim (S : Sem V W) (c : Code) (ρ : Regs V) (w : W) (m : Except V α × W) (Q : α → Regs V → Prop)
    (E : Regs V → Prop) : Prop :=
  match m with
  | (.ok a, w1) => ∃ ρ', c.run S ρ w = (.ok (), ρ', w1) ∧ Q a ρ'
  | (.error x, w1) => ∃ ρ', c.run S ρ w = (.error x, ρ', w1) ∧ E ρ'

theorem Sim.mono {c : Code} {ρ : Regs V} {w : W} {m : Except V α × W} {Q Q' : α → Regs V → Prop}
    {E E' : Regs V → Prop} (h : Sim S c ρ w m Q E) (hq : ∀ a ρ', Q a ρ' → Q' a ρ') (he : ∀ ρ', E ρ' → E' ρ') :
    Sim S c ρ w m Q' E' := by
  obtain ⟨r, w1⟩ := m
  cases r with
  | ok a => obtain ⟨ρ', h1, h2⟩ := h; exact ⟨ρ', h1, hq _ _ h2⟩
  | error x => obtain ⟨ρ', h1, h2⟩ := h; exact ⟨ρ', h1, he _ h2⟩

theorem Sim.seq {a b : Code} {ρ : Regs V} {w : W} {m : Comp V W α} {f : α → Comp V W β} {Q1 : α → Regs V → Prop}
    {Q : β → Regs V → Prop} {E1 E : Regs V → Prop} (h : Sim S a ρ w (m w) Q1 E1) (he : ∀ ρ', E1 ρ' → E ρ')
    (h2 : ∀ v ρ1 w1, Q1 v ρ1 → Sim S b ρ1 w1 (f v w1) Q E) : Sim S (a ;; b) ρ w ((m >>- f) w) Q E := by
  unfold andThen
  rcases hm : m w with ⟨r, w1⟩
  rw [hm] at h
  cases r with
  | ok v =>
    obtain ⟨ρ1, h3, h4⟩ := h
    have := h2 v ρ1 w1 h4
    simp only [Sim] at this ⊢
    simp only [Code.run, h3]
    exact this
  | error x =>
    obtain ⟨ρ1, h3, h4⟩ := h
    exact ⟨ρ1, by simp only [Code.run, h3], he _ h4⟩

theorem Sim.skip_seq {b : Code} {ρ : Regs V} {w : W} {m : Except V α × W} {Q : α → Regs V → Prop} {E : Regs V → Prop}
    (h : Sim S b ρ w m Q E) : Sim S (.skip ;; b) ρ w m Q E := by
  simpa only [Sim, Code.run] using h

theorem Sim.load_seq {b : Code} {d : Nat} {c : Const} {ρ : Regs V} {w : W} {m : Except V α × W} {Q : α → Regs V → Prop}
    {E : Regs V → Prop} (h : Sim S b (upd ρ d (S.const c)) w m Q E) : Sim S (.load d c ;; b) ρ w m Q E := by
  simpa only [Sim, Code.run] using h

theorem Sim.move_seq {b : Code} {d s : Nat} {ρ : Regs V} {w : W} {m : Except V α × W} {Q : α → Regs V → Prop}
    {E : Regs V → Prop} (h : Sim S b (upd ρ d (ρ s)) w m Q E) : Sim S (.move d s ;; b) ρ w m Q E := by
  simpa only [Sim, Code.run] using h

theorem Sim.assoc {a b c : Code} {ρ : Regs V} {w : W} {m : Except V α × W} {Q : α → Regs V → Prop} {E : Regs V → Prop}
    (h : Sim S (a ;; b ;; c) ρ w m Q E) : Sim S ((a ;; b) ;; c) ρ w m Q E := by
  have : (Code.seq (Code.seq a b) c).run S ρ w = (Code.seq a (Code.seq b c)).run S ρ w := by
    simp only [Code.run]
    rcases a.run S ρ w with ⟨r, ρ1, w1⟩
    cases r <;> rfl
  simpa only [Sim, this] using h

/-- A piece of code with nothing that corresponds to it, at the end. -/
theorem Sim.last {a b : Code} {ρ : Regs V} {w : W} {m : Except V α × W} {Q1 Q : α → Regs V → Prop}
    {E1 E : Regs V → Prop} (h : Sim S a ρ w m Q1 E1) (he : ∀ ρ', E1 ρ' → E ρ')
    (h2 : ∀ v ρ1 w1, Q1 v ρ1 → Sim S b ρ1 w1 (ret v w1) Q E) : Sim S (a ;; b) ρ w m Q E := by
  obtain ⟨r, w1⟩ := m
  cases r with
  | ok v =>
    obtain ⟨ρ1, h3, h4⟩ := h
    have := h2 v ρ1 w1 h4
    simp only [Sim, ret] at this ⊢
    simp only [Code.run, h3]
    exact this
  | error x =>
    obtain ⟨ρ1, h3, h4⟩ := h
    exact ⟨ρ1, by simp only [Code.run, h3], he _ h4⟩

theorem Sim.skip {ρ : Regs V} {w : W} {v : α} {Q : α → Regs V → Prop} {E : Regs V → Prop} (h : Q v ρ) :
    Sim S .skip ρ w (ret v w) Q E := ⟨ρ, by simp only [Code.run], h⟩

theorem Sim.skip_inv {c : Code} (hc : c = .skip) {ρ : Regs V} {w : W} {m : Except V α × W} {Q : α → Regs V → Prop}
    {E : Regs V → Prop} (h : Sim S c ρ w m Q E) : Sim S c ρ w m (fun v ρ' => Q v ρ' ∧ ρ' = ρ) (fun _ => False) := by
  subst hc
  obtain ⟨r, w1⟩ := m
  cases r <;> obtain ⟨ρ1, h3, h4⟩ := h <;> simp only [Code.run, Prod.mk.injEq] at h3
  · simp at h3
  · exact ⟨ρ1, by simp only [Code.run, h3], h4, h3.2.1.symm⟩

theorem Sim.move {d s : Nat} {ρ : Regs V} {w : W} {v : α} {Q : α → Regs V → Prop} {E : Regs V → Prop}
    (h : Q v (upd ρ d (ρ s))) : Sim S (.move d s) ρ w (ret v w) Q E := ⟨_, by simp only [Code.run], h⟩

theorem Sim.load {d : Nat} {c : Const} {ρ : Regs V} {w : W} {v : α} {Q : α → Regs V → Prop} {E : Regs V → Prop}
    (h : Q v (upd ρ d (S.const c))) : Sim S (.load d c) ρ w (ret v w) Q E := ⟨_, by simp only [Code.run], h⟩

theorem Sim.op {p : Prim} {d : Nat} {l : List Operand} {vs : List V} {ρ : Regs V} {w : W} {Q : V → Regs V → Prop}
    {E : Regs V → Prop} (hl : l.map (Operand.val S ρ) = vs) (h : ∀ v, Q v (upd ρ d v)) (he : E ρ) :
    Sim S (.op p d l) ρ w (S.prim p vs w) Q E := by
  subst hl
  rcases hm : S.prim p (l.map (Operand.val S ρ)) w with ⟨r, w1⟩
  cases r with
  | ok v => exact ⟨_, by simp only [Code.run, hm], h v⟩
  | error x => exact ⟨_, by simp only [Code.run, hm], he⟩

theorem Sim.eff {p : Prim} {l : List Operand} {vs : List V} {ρ : Regs V} {w : W} {Q : V → Regs V → Prop}
    {E : Regs V → Prop} (hl : l.map (Operand.val S ρ) = vs) (h : ∀ v, Q v ρ) (he : E ρ) :
    Sim S (.eff p l) ρ w (S.prim p vs w) Q E := by
  subst hl
  rcases hm : S.prim p (l.map (Operand.val S ρ)) w with ⟨r, w1⟩
  cases r with
  | ok v => exact ⟨_, by simp only [Code.run, hm], h v⟩
  | error x => exact ⟨_, by simp only [Code.run, hm], he⟩

theorem Sim.ret {c : Code} {ρ : Regs V} {w : W} {m : Comp V W α} {g : α → β} {Q : β → Regs V → Prop}
    {E : Regs V → Prop} (h : Sim S c ρ w (m w) (fun a ρ' => Q (g a) ρ') E) :
    Sim S c ρ w ((m >>- fun a => Ec.ret (g a)) w) Q E := by
  unfold andThen Ec.ret
  rcases hm : m w with ⟨r, w1⟩
  rw [hm] at h
  cases r <;> exact h

theorem Sim.ite {r : Nat} {a b : Code} {ρ : Regs V} {w : W} {m : Except V α × W} {Q : α → Regs V → Prop}
    {E : Regs V → Prop} (ha : S.truthy (ρ r) = true → Sim S a ρ w m Q E)
    (hb : S.truthy (ρ r) = false → Sim S b ρ w m Q E) : Sim S (.ite r a b) ρ w m Q E := by
  cases h : S.truthy (ρ r) with
  | true => have := ha h; simp only [Sim, Code.run, h, if_true]; exact this
  | false => have := hb h; simp only [Sim, Code.run, h, Bool.false_eq_true, if_false]; exact this

/-- The same for conditions. -/
def SimT (S : Sem V W) (q : Test) (ρ : Regs V) (w : W) (m : Except V Bool × W) (Q : Bool → Regs V → Prop)
    (E : Regs V → Prop) : Prop :=
  match m with
  | (.ok a, w1) => ∃ ρ', q.run S ρ w = (.ok a, ρ', w1) ∧ Q a ρ'
  | (.error x, w1) => ∃ ρ', q.run S ρ w = (.error x, ρ', w1) ∧ E ρ'

theorem Sim.cond {q : Test} {a b : Code} {ρ : Regs V} {w : W} {m : Comp V W Bool} {f g : Comp V W α}
    {Q1 : Bool → Regs V → Prop} {Q : α → Regs V → Prop} {E1 E : Regs V → Prop}
    (h : SimT S q ρ w (m w) Q1 E1) (he : ∀ ρ', E1 ρ' → E ρ')
    (ha : ∀ ρ1 w1, Q1 true ρ1 → Sim S a ρ1 w1 (f w1) Q E) (hb : ∀ ρ1 w1, Q1 false ρ1 → Sim S b ρ1 w1 (g w1) Q E) :
    Sim S (.cond q a b) ρ w ((m >>- fun q => if q then f else g) w) Q E := by
  unfold andThen
  rcases hm : m w with ⟨r, w1⟩
  rw [hm] at h
  cases r with
  | ok v =>
    obtain ⟨ρ1, h3, h4⟩ := h
    cases v with
    | true => have := ha ρ1 w1 h4; simp only [Sim, Code.run, h3, if_true] at this ⊢; exact this
    | false => have := hb ρ1 w1 h4; simp only [Sim, Code.run, h3, Bool.false_eq_true, if_false] at this ⊢; exact this
  | error x =>
    obtain ⟨ρ1, h3, h4⟩ := h
    exact ⟨ρ1, by simp only [Code.run, h3], he _ h4⟩

theorem SimT.val {c : Code} {r : Nat} {ρ : Regs V} {w : W} {m : Comp V W V} {Q1 : V → Regs V → Prop}
    {Q : Bool → Regs V → Prop} {E1 E : Regs V → Prop} (h : Sim S c ρ w (m w) Q1 E1) (he : ∀ ρ', E1 ρ' → E ρ')
    (hr : ∀ v ρ', Q1 v ρ' → ρ' r = v ∧ Q (S.truthy v) ρ') :
    SimT S (.val c r) ρ w ((m >>- fun v => ret (S.truthy v)) w) Q E := by
  unfold andThen ret
  rcases hm : m w with ⟨a, w1⟩
  rw [hm] at h
  cases a with
  | ok v =>
    obtain ⟨ρ1, h3, h4⟩ := h
    have := hr _ _ h4
    exact ⟨ρ1, by simp only [Test.run, h3, this.1], this.2⟩
  | error x =>
    obtain ⟨ρ1, h3, h4⟩ := h
    exact ⟨ρ1, by simp only [Test.run, h3], he _ h4⟩

theorem SimT.not {q : Test} {ρ : Regs V} {w : W} {m : Comp V W Bool} {Q : Bool → Regs V → Prop} {E : Regs V → Prop}
    (h : SimT S q ρ w (m w) (fun b ρ' => Q (!b) ρ') E) : SimT S (.not q) ρ w ((m >>- fun b => ret (!b)) w) Q E := by
  unfold andThen ret
  rcases hm : m w with ⟨a, w1⟩
  rw [hm] at h
  cases a with
  | ok v => obtain ⟨ρ1, h3, h4⟩ := h; exact ⟨ρ1, by simp only [Test.run, h3], h4⟩
  | error x => obtain ⟨ρ1, h3, h4⟩ := h; exact ⟨ρ1, by simp only [Test.run, h3], h4⟩

theorem SimT.logic {p q : Test} {isAnd : Bool} {ρ : Regs V} {w : W} {m n : Comp V W Bool} {Q1 Q : Bool → Regs V → Prop}
    {E1 E : Regs V → Prop} (h : SimT S p ρ w (m w) Q1 E1) (he : ∀ ρ', E1 ρ' → E ρ') (hq : ∀ b ρ', Q1 b ρ' → Q b ρ')
    (h2 : ∀ v ρ1 w1, Q1 v ρ1 → SimT S q ρ1 w1 (n w1) Q E) :
    SimT S (if isAnd then .and p q else .or p q) ρ w ((m >>- fun b => if b == isAnd then n else ret b) w) Q E := by
  unfold andThen
  rcases hm : m w with ⟨a, w1⟩
  rw [hm] at h
  cases a with
  | ok v =>
    obtain ⟨ρ1, h3, h4⟩ := h
    have := h2 _ _ w1 h4
    cases v <;> cases isAnd <;> simp only [SimT, Test.run, h3, if_true, Bool.false_eq_true, if_false, beq_self_eq_true] at this ⊢
    · exact this
    · exact ⟨_, rfl, hq _ _ h4⟩
    · exact ⟨_, rfl, hq _ _ h4⟩
    · exact this
  | error x =>
    obtain ⟨ρ1, h3, h4⟩ := h
    cases isAnd <;> exact ⟨ρ1, by simp only [Test.run, h3, if_true, Bool.false_eq_true, if_false], he _ h4⟩

end Verif.Ec
