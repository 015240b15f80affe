import Verif.Ec.Sim

/- Expressions depend only on the variables which they read. -/

namespace Verif.Ec

variable {V W : Type} {S : Sem V W} {this : Nat}

theorem andThen_congr {α β : Type} {m m' : Comp V W α} {f f' : α → Comp V W β} (h : m = m') (hf : ∀ a, f a = f' a) :
    (m >>- f) = (m' >>- f') := by
  have : f = f' := funext hf
  rw [h, this]

mutual
theorem Expr.eval_congr {ρ ρ' : Env V} (e : Expr) (h : ∀ x, e.reads this x = true → ρ x = ρ' x) :
    e.eval S this ρ = e.eval S this ρ' := by
  cases e with
  | lit c => simp only [Expr.eval]
  | var g i => simp only [Expr.eval]
  | this => simp only [Expr.eval, h this (by simp [Expr.reads])]
  | «local» x => simp only [Expr.eval, h x (by simp [Expr.reads])]
  | neg e => simp only [Expr.eval, e.eval_congr h]
  | pos e => simp only [Expr.eval, e.eval_congr h]
  | not t e => simp only [Expr.eval, e.eval_congr h]
  | logic i a b =>
    simp only [Expr.reads, Bool.or_eq_true] at h
    simp only [Expr.eval, a.eval_congr fun x hx => h x (.inl hx), b.eval_congr fun x hx => h x (.inr hx)]
  | cond c a b =>
    simp only [Expr.reads, Bool.or_eq_true] at h
    simp only [Expr.eval, c.test_congr fun x hx => h x (.inl (.inl hx)), a.eval_congr fun x hx => h x (.inl (.inr hx)),
      b.eval_congr fun x hx => h x (.inr hx)]
  | unary n e => simp only [Expr.eval, e.eval_congr h]
  | binary n s a b =>
    simp only [Expr.reads, Bool.or_eq_true] at h
    simp only [Expr.eval, a.eval_congr fun x hx => h x (.inl hx), b.eval_congr fun x hx => h x (.inr hx)]
  | has d e k => simp only [Expr.eval, e.eval_congr h]
  | prop o e k => simp only [Expr.eval, e.eval_congr h]
  | elem o e i => simp only [Expr.eval, e.eval_congr h]
  | index o a b =>
    simp only [Expr.reads, Bool.or_eq_true] at h
    simp only [Expr.eval, a.eval_congr fun x hx => h x (.inl hx), b.eval_congr fun x hx => h x (.inr hx)]
  | slice a b c =>
    simp only [Expr.reads, Bool.or_eq_true] at h
    simp only [Expr.eval, a.eval_congr fun x hx => h x (.inl (.inl hx)), b.eval_congr fun x hx => h x (.inl (.inr hx)),
      c.eval_congr fun x hx => h x (.inr hx)]
  | yield e => simp only [Expr.eval, e.eval_congr h]
  | array l => simp only [Expr.eval, l.fill_congr h]
  | object l => simp only [Expr.eval, l.fill_congr h]
  | func f i l => simp only [Expr.eval, l.fill_congr h]
  | call f n l =>
    simp only [Expr.reads, Bool.or_eq_true] at h
    simp only [Expr.eval, f.eval_congr fun x hx => h x (.inl hx), l.vals_congr fun x hx => h x (.inr hx),
      l.fill_congr fun x hx => h x (.inr hx)]
  | async f n l =>
    simp only [Expr.reads, Bool.or_eq_true] at h
    simp only [Expr.eval, f.eval_congr fun x hx => h x (.inl hx), l.fill_congr fun x hx => h x (.inr hx)]
theorem Elems.fill_congr {ρ ρ' : Env V} (l : Elems) (h : ∀ x, l.reads this x = true → ρ x = ρ' x) {m : Kind} {c : V} {i : Nat} :
    l.fill S this ρ m c i = l.fill S this ρ' m c i := by
  cases l with
  | nil => simp only [Elems.fill]
  | cons x k e l =>
    simp only [Elems.reads, Bool.or_eq_true] at h
    simp only [Elems.fill, e.eval_congr fun x hx => h x (.inl hx), l.fill_congr fun x hx => h x (.inr hx)]
theorem Elems.vals_congr {ρ ρ' : Env V} (l : Elems) (h : ∀ x, l.reads this x = true → ρ x = ρ' x) :
    l.vals S this ρ = l.vals S this ρ' := by
  cases l with
  | nil => simp only [Elems.vals]
  | cons x k e l =>
    simp only [Elems.reads, Bool.or_eq_true] at h
    simp only [Elems.vals, e.eval_congr fun x hx => h x (.inl hx), l.vals_congr fun x hx => h x (.inr hx)]
theorem Callee.eval_congr {ρ ρ' : Env V} (f : Callee) (h : ∀ x, f.reads this x = true → ρ x = ρ' x) :
    f.eval S this ρ = f.eval S this ρ' := by
  cases f with
  | fn e => simp only [Callee.eval, e.eval_congr h]
  | prop o e k => simp only [Callee.eval, e.eval_congr h]
  | elem o e i => simp only [Callee.eval, e.eval_congr h]
  | index o a b =>
    simp only [Callee.reads, Bool.or_eq_true] at h
    simp only [Callee.eval, a.eval_congr fun x hx => h x (.inl hx), b.eval_congr fun x hx => h x (.inr hx)]
  | module g => simp only [Callee.eval]
theorem Cond.test_congr {ρ ρ' : Env V} (c : Cond) (h : ∀ x, c.reads this x = true → ρ x = ρ' x) :
    c.test S this ρ = c.test S this ρ' := by
  cases c with
  | val e => simp only [Cond.test, e.eval_congr h]
  | not c => simp only [Cond.test, c.test_congr h]
  | logic i a b =>
    simp only [Cond.reads, Bool.or_eq_true] at h
    simp only [Cond.test, a.test_congr fun x hx => h x (.inl hx), b.test_congr fun x hx => h x (.inr hx)]
end

/-- Without identifiers only `this` is read. -/
theorem reads_ids (x : Nat) (hx : x ≠ this) :
    (∀ e : Expr, e.ids = false → e.reads this x = false) ∧ (∀ l : Elems, l.ids = false → l.reads this x = false) := by
  refine ⟨fun e => ?_, fun l => ?_⟩
  · refine Expr.rec (motive_1 := fun e => e.ids = false → e.reads this x = false)
      (motive_2 := fun l => l.ids = false → l.reads this x = false)
      (motive_3 := fun l => l.ids = false → l.reads this x = false)
      (motive_4 := fun l => l.ids = false → l.reads this x = false)
      ?_ ?_ ?_ ?_ ?_ ?_ ?_ ?_ ?_ ?_ ?_ ?_ ?_ ?_ ?_ ?_ ?_ ?_ ?_ ?_ ?_ ?_ ?_ ?_ ?_ ?_ ?_ ?_ ?_ ?_ ?_ ?_ e <;> intros <;>
      simp_all [Expr.ids, Expr.reads, Elems.ids, Elems.reads, Callee.ids, Callee.reads, Cond.ids, Cond.reads]
  · refine Elems.rec (motive_1 := fun e => e.ids = false → e.reads this x = false)
      (motive_2 := fun l => l.ids = false → l.reads this x = false)
      (motive_3 := fun l => l.ids = false → l.reads this x = false)
      (motive_4 := fun l => l.ids = false → l.reads this x = false)
      ?_ ?_ ?_ ?_ ?_ ?_ ?_ ?_ ?_ ?_ ?_ ?_ ?_ ?_ ?_ ?_ ?_ ?_ ?_ ?_ ?_ ?_ ?_ ?_ ?_ ?_ ?_ ?_ ?_ ?_ ?_ ?_ l <;> intros <;>
      simp_all [Expr.ids, Expr.reads, Elems.ids, Elems.reads, Callee.ids, Callee.reads, Cond.ids, Cond.reads]

mutual
theorem Expr.clob_reads {x : Nat} (e : Expr) (h : e.reads this x = false) : e.clob this x = false := by
  cases e with
  | neg e => exact e.clob_reads h
  | pos e => exact e.clob_reads h
  | has d e k => exact e.clob_reads h
  | yield e => exact e.clob_reads h
  | cond c a b =>
    simp only [Expr.reads, Bool.or_eq_false_iff] at h
    simp only [Expr.clob, a.clob_reads h.1.2, b.clob_reads h.2, Bool.or_self]
  | object l => exact h
  | func f i l => exact h
  | async f n l =>
    simp only [Expr.reads, Bool.or_eq_false_iff] at h
    simp only [Expr.clob, f.clob_reads h.1, h.2, Bool.false_and, Bool.or_self]
  | _ => rfl
theorem Callee.clob_reads {x : Nat} (f : Callee) (h : f.reads this x = false) : f.clob this x = false := by
  cases f with
  | fn e => exact e.clob_reads h
  | prop o e k => exact h
  | elem o e k => exact h
  | index o e k => simp only [Callee.reads, Bool.or_eq_false_iff] at h; exact h.1
  | module g => rfl
end

end Verif.Ec
