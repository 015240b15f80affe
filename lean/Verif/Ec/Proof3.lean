import Verif.Ec.Proof2

/- Arrays, objects, functions and calls. -/

namespace Verif.Ec

variable {V W : Type} {S : Sem V W} {cx : Cx}

local macro "regs" : tactic => `(tactic| grind (splits := 40) [Wants, keeps, keepsE])

theorem fixedSize_eq (l : Elems) (n : Nat) : fixedSize l n = min l.fixed n := by
  induction n generalizing l with
  | zero => cases l <;> simp [fixedSize]
  | succ n ih =>
    cases l with
    | nil => simp [fixedSize, Elems.fixed]
    | cons x k e l => cases x <;> simp [fixedSize, Elems.fixed, ih]

theorem initialSize_eq (l : Elems) : initialSize l = fixedSize l 127 := (fixedSize_eq l 127).symm

theorem length_eq : ∀ l : Elems, l.length = l.count
  | .nil => rfl
  | .cons _ _ _ l => by simp only [Elems.length, Elems.count, length_eq l]; omega

theorem anyExpand_eq : ∀ l : Elems, l.anyExpand = l.hasExpand
  | .nil => rfl
  | .cons x _ _ l => by cases x <;> simp [Elems.anyExpand, Elems.hasExpand, anyExpand_eq l]

theorem count_zero {l : Elems} (h : l.count = 0) : l = .nil := by
  cases l with
  | nil => rfl
  | cons x k e l => simp only [Elems.count] at h; omega

theorem reads_temp {l : Elems} (hw : WfL cx l) {d : Nat} (hd : cx.vars d = false) : l.reads cx.this d = false := by
  cases h : l.reads cx.this d with
  | false => rfl
  | true => have := hw d h; grind

/-- A container is made and filled. -/
theorem box_ok {l : Elems} (ih : FillOk S cx l) {p : Prim} {m : Mode} {d : Nat} {t t' : Tmps} {c : Code}
    (h : genFill cx m d 0 l t = some (c, t')) (hw : WfL cx l) (hm : l.modAsync = false) (hd : held cx t d)
    (hr : l.reads cx.this d = false) :
    (∀ j, t' j = t j) ∧ ∀ ρ ρ1 w, (∀ x, cx.vars x = true → l.reads cx.this x = true → ρ1 x = ρ x) →
      Sim S (.op p d [] ;; c) ρ1 w
        ((S.prim p [] >>- fun a => l.fill S cx.this ρ (kindOf m) a 0 >>- fun _ => ret a) w)
        (fun v ρ' => ρ' d = v ∧ keeps cx t (some d) ρ1 ρ') (keepsE cx t (some d) (decide (l.count = 0)) ρ1) := by
  obtain ⟨s1, hs⟩ := ih _ _ _ _ _ _ h hw hm hd hr
  refine ⟨s1, fun ρ ρ1 w hg => ?_⟩
  refine Sim.seq (Q1 := fun v ρ' => ρ' = upd ρ1 d v) (E1 := fun ρ' => ρ' = ρ1) (Sim.op rfl (fun _ => rfl) rfl) (by rintro _ rfl; regs) ?_
  intro v ρ2 w2 he
  subst he
  refine Sim.ret (g := fun _ => v) ?_
  have := hs ρ (upd ρ1 d v) w2 (by grind)
  rw [show upd ρ1 d v d = v by grind] at this
  by_cases hl : l.count = 0
  · have hln := count_zero hl
    subst hln
    simp only [genFill] at h
    cases h
    refine (Sim.skip_inv rfl this).mono ?_ ?_ <;> regs
  · refine this.mono ?_ ?_ <;> regs

theorem ok_array {l : Elems} (ih : FillOk S cx l) : GenOk S cx (.array l) := by
  intro sib dest t o h hw hd hc hm
  simp only [gen, genArray, Option.bind_eq_bind, Option.bind_eq_some_iff] at h
  obtain ⟨o1, ⟨⟨d, t1⟩, h1, ⟨c, t2⟩, h2, h3⟩, h4⟩ := h
  dsimp only at h2
  cases h3
  have h5 := take_ok h1
  have hv : isVar cx dest = true ↔ ∃ x, dest = some x ∧ cx.vars x = true := by
    unfold isVar; split <;> simp
  have hr : l.reads cx.this d = false := by
    by_cases hvd : cx.vars d = true
    · refine (reads_ids d ?_).2 l ?_
      · regs
      · cases hi : l.ids <;> simp_all
    · exact reads_temp hw (by simpa using hvd)
  obtain ⟨s1, hs⟩ := box_ok (p := .newArray (initialSize l)) ih h2 hw hm (by regs) hr
  rw [initialSize_eq] at hs
  simp only [initialSize_eq, kindOf] at h4 hs
  have hdd : (dest = some d ∧ (l.ids = false ∨ cx.vars d = false) ∧ ∀ j, t1 j = t j) ∨
      (dest ≠ some d ∧ cx.vars d = false ∧ t d = false ∧ (∀ j, t1 j = if j = d then true else t j) ∧
        (∀ x, dest = some x → cx.vars x = true ∧ l.ids = true)) := by
    cases hi : l.ids <;> cases hv2 : isVar cx dest <;> simp only [hi, hv2] at h5 hv <;> regs
  clear h1 h5 hv hc ih
  unfold intoOther at h4
  split at h4
  · cases h4
    refine ⟨by clear hs; constructor <;> regs, fun ρ w => ?_⟩
    simp only [Expr.eval, Expr.late]
    refine (hs ρ ρ w (by grind)).mono ?_ ?_ <;> clear hs <;> regs
  · split at h4
    · cases h4
      refine ⟨by clear hs; constructor <;> regs, fun ρ w => ?_⟩
      simp only [Expr.eval, Expr.late]
      refine (hs ρ ρ w (by grind)).mono ?_ ?_
      · clear hs; regs
      · clear hs; regs
    · cases h4
      refine ⟨by clear hs; constructor <;> regs, fun ρ w => ?_⟩
      simp only [Expr.eval, Expr.late]
      refine Sim.last (hs ρ ρ w (by grind)) ?_ ?_
      · clear hs; regs
      · clear hs
        intro v ρ1 w1 ⟨hv, hk⟩
        refine Sim.move ?_
        regs

theorem ok_object {l : Elems} (ih : FillOk S cx l) : GenOk S cx (.object l) := by
  intro sib dest t o h hw hd hc hm
  simp only [gen, genObject, Option.bind_eq_bind, Option.bind_eq_some_iff] at h
  obtain ⟨⟨d, t1⟩, h1, ⟨c, t2⟩, h2, h3⟩ := h
  dsimp only at h2
  cases h3
  have h5 := take_ok h1
  have hr : l.reads cx.this d = false := by
    cases h5 with
    | inl h5 => exact hc d h5.1
    | inr h5 => exact reads_temp hw h5.2.1
  obtain ⟨s1, hs⟩ := box_ok (p := .newObj) ih h2 hw hm (by regs) hr
  simp only [kindOf] at hs
  refine ⟨by clear hs ih; constructor <;> regs, fun ρ w => ?_⟩
  simp only [Expr.eval, Expr.late]
  refine (hs ρ ρ w (by grind)).mono ?_ ?_ <;> clear hs ih <;> regs

theorem ok_func {l : Elems} (f : Nat) (i : Bool) (ih : FillOk S cx l) : GenOk S cx (.func f i l) := by
  intro sib dest t o h hw hd hc hm
  simp only [gen, Option.bind_eq_bind, length_eq] at h
  simp only [Expr.eval, Expr.late]
  split at h
  · rename_i hl
    simp only [Option.bind_eq_some_iff] at h
    obtain ⟨⟨d, t1⟩, h1, h3⟩ := h
    cases h3
    have h5 := take_ok h1
    refine ⟨by clear ih; constructor <;> regs, fun ρ w => ?_⟩
    simp only [hl, if_true, decide_true]
    refine Sim.ret (g := fun a => a) ?_
    refine Sim.op rfl ?_ ?_ <;> regs
  · rename_i hl
    simp only [Option.bind_eq_some_iff] at h
    obtain ⟨⟨d, t1⟩, h1, ⟨a, t2⟩, h2, ⟨c, t3⟩, h3, h4⟩ := h
    dsimp only at h2 h3 h4
    cases h4
    have h5 := take_ok h1
    have h6 := genReg_ok h2
    have hr : l.reads cx.this d = false := by
      cases h5 with
      | inl h5 => exact hc d h5.1
      | inr h5 => exact reads_temp hw h5.2.1
    obtain ⟨s1, hs⟩ := ih _ _ _ _ _ _ h3 hw hm (by regs) (reads_temp hw h6.1)
    refine ⟨by clear hs ih; constructor <;> regs, fun ρ w => ?_⟩
    simp only [hl, if_false, decide_false]
    refine Sim.seq (Q1 := fun v ρ' => ρ' = upd ρ d v) (E1 := fun ρ' => ρ' = ρ) (Sim.op rfl (fun _ => rfl) rfl) (by rintro _ rfl; regs) ?_
    intro g ρ1 w1 he
    subst he
    refine Sim.seq (Q1 := fun v ρ' => ρ' = upd (upd ρ d g) a v) (E1 := fun ρ' => ρ' = upd ρ d g)
      (Sim.op rfl (fun _ => rfl) rfl) (by rintro _ rfl; regs) ?_
    intro b ρ2 w2 he
    subst he
    have := hs ρ (upd (upd ρ d g) a b) w2 (by regs)
    rw [show upd (upd ρ d g) a b a = b by grind] at this
    refine Sim.seq this (by clear hs ih this; regs) ?_
    intro _ ρ3 w3 hk
    clear hs ih this
    refine Sim.ret (g := fun _ => g) ?_
    refine Sim.eff ?_ ?_ ?_
    · simp only [List.map, Operand.val]; regs
    · regs
    · regs

end Verif.Ec
