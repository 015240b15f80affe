import Verif.Ec.Proof

/- Conditional expressions and elements. -/

namespace Verif.Ec

variable {V W : Type} {S : Sem V W} {cx : Cx}

local macro "regs" : tactic => `(tactic| grind (splits := 40) [Wants, keeps, keepsE])

def TestOk (S : Sem V W) (cx : Cx) (c : Cond) : Prop :=
  ∀ sib t q t', genTest cx sib c t = some (q, t') → WfC cx c → c.modAsync = false →
    (∀ j, t' j = t j) ∧ ∀ ρ ρ1 w, (∀ x, cx.vars x = true → c.reads cx.this x = true → ρ1 x = ρ x) →
      SimT S q ρ1 w (c.test S cx.this ρ w) (fun _ ρ' => ∀ k, held cx t k → ρ' k = ρ1 k)
        (fun ρ' => ∀ k, held cx t k → ρ' k = ρ1 k)

theorem ok_val {e : Expr} (ih : GenOk S cx e) : TestOk S cx (.val e) := by
  intro sib t q t' h hw hm
  simp only [genTest, Option.bind_eq_bind, Option.bind_eq_some_iff] at h
  obtain ⟨o1, h1, h2⟩ := h
  cases h2
  obtain ⟨⟨s1, s3⟩, hs⟩ := ih.free h1 hw hm
  refine ⟨by clear hs ih; regs, fun ρ ρ1 w hr => ?_⟩
  simp only [Cond.test]
  refine SimT.val (hs ρ ρ1 w hr) (by grind) ?_
  grind

theorem ok_tnot {c : Cond} (ih : TestOk S cx c) : TestOk S cx (.not c) := by
  intro sib t q t' h hw hm
  simp only [genTest, Option.bind_eq_bind, Option.bind_eq_some_iff] at h
  obtain ⟨⟨q1, t1⟩, h1, h2⟩ := h
  cases h2
  obtain ⟨s1, hs⟩ := ih _ _ _ _ h1 hw hm
  refine ⟨s1, fun ρ ρ1 w hr => ?_⟩
  simp only [Cond.test]
  exact SimT.not (hs ρ ρ1 w hr)

theorem ok_tlogic {a b : Cond} (isAnd : Bool) (iha : TestOk S cx a) (ihb : TestOk S cx b) : TestOk S cx (.logic isAnd a b) := by
  intro sib t q t' h hw hm
  simp only [genTest, Option.bind_eq_bind, Option.bind_eq_some_iff] at h
  obtain ⟨⟨q1, t1⟩, h1, ⟨q2, t2⟩, h2, h3⟩ := h
  cases h3
  simp only [Cond.modAsync, Bool.or_eq_false_iff] at hm
  obtain ⟨s1, hs⟩ := iha _ _ _ _ h1 (fun x hx => hw x (by simp [Cond.reads, hx])) hm.1
  obtain ⟨s2, hs2⟩ := ihb _ _ _ _ h2 (fun x hx => hw x (by simp [Cond.reads, hx])) hm.2
  refine ⟨by grind, fun ρ ρ1 w hr => ?_⟩
  simp only [Cond.test]
  simp only [Cond.reads, Bool.or_eq_true] at hr
  refine SimT.logic (hs ρ ρ1 w (by grind)) (by grind) (fun _ _ h => h) ?_
  intro v ρ2 w2 hk
  have := hs2 ρ ρ2 w2 (by grind)
  simp only [SimT] at this ⊢
  split at this <;> grind

/-- Where a branch of `?:` leaves the result. -/
theorem intoDest_ok {dest : Option Nat} {t : Tmps} {o p : Out} (h : intoDest cx dest o = some p)
    (hs : Shape cx t dest o.reg o.tmps) :
    ((dest = some p.reg ∧ ∀ j, p.tmps j = t j) ∨ (dest = none ∧ cx.vars p.reg = false ∧ t p.reg = false ∧
      ∀ j, p.tmps j = if j = p.reg then true else t j)) ∧
    ∀ {ρ : Regs V} {w : W} {m : Except V V × W} {E : Regs V → Prop},
      Sim S o.code ρ w m (fun v ρ' => ρ' o.reg = v ∧ keeps cx t dest ρ ρ') E →
      Sim S p.code ρ w m (fun v ρ' => ρ' p.reg = v ∧ keeps cx t dest ρ ρ') E := by
  obtain ⟨s1, s2, s3⟩ := hs
  unfold intoDest at h
  split at h
  · cases h
    exact ⟨by grind, fun h => h⟩
  · simp only [Option.bind_eq_bind, Option.bind_eq_some_iff] at h
    obtain ⟨⟨d, t1⟩, h1, h2⟩ := h
    cases h2
    split at h1
    · cases h1
      refine ⟨by regs, fun h => Sim.last h (fun _ h => h) ?_⟩
      intro v ρ1 w1 ⟨hv, hk⟩
      refine Sim.move ?_; regs
    · have h5 := destReg_ok h1
      refine ⟨by regs, fun h => Sim.last h (fun _ h => h) ?_⟩
      intro v ρ1 w1 ⟨hv, hk⟩
      refine Sim.move ?_; regs

theorem isReg_ok {dest : Option Nat} {e : Expr} (h : isReg dest e = true) : ∃ x, e = .local x ∧ dest = some x := by
  unfold isReg at h
  split at h
  · exact ⟨_, rfl, by simpa using h⟩
  · simp at h

theorem ok_cond {c : Cond} {a b : Expr} (ihc : TestOk S cx c) (iha : GenOk S cx a) (ihb : GenOk S cx b) :
    GenOk S cx (.cond c a b) := by
  intro sib dest t o h hw hd hc hm
  simp only [gen, Option.bind_eq_bind, Option.bind_eq_some_iff] at h
  obtain ⟨⟨q, t1⟩, h1, h2⟩ := h
  dsimp only at h2
  simp only [Expr.modAsync, Bool.or_eq_false_iff] at hm
  simp only [Expr.clob, Bool.or_eq_false_iff] at hc
  have hwa : WfE cx a := fun x hx => hw x (by simp [Expr.reads, hx])
  have hwb : WfE cx b := fun x hx => hw x (by simp [Expr.reads, hx])
  obtain ⟨s1, hs⟩ := ihc _ _ _ _ h1 (fun x hx => hw x (by simp [Expr.reads, hx])) hm.1.1
  have : t1 = t := funext s1
  subst this
  clear s1
  split at h2
  · rename_i hia
    obtain ⟨x, rfl, rfl⟩ := isReg_ok hia
    have hvx : cx.vars x = true := hwa x (by simp [Expr.reads])
    split at h2
    · rename_i hib
      obtain ⟨y, rfl, hy⟩ := isReg_ok hib
      cases hy
      cases h2
      refine ⟨by constructor <;> simp, fun ρ w => ?_⟩
      simp only [Expr.eval, Expr.late]
      refine Sim.cond (hs ρ ρ w (by grind)) (by regs) ?_ ?_ <;> intro ρ1 w1 hk <;> refine Sim.skip ?_ <;>
        simp only [Option.getD_some] <;> regs
    · simp only [Option.bind_eq_some_iff] at h2
      obtain ⟨o1, h3, o2, h4, h5⟩ := h2
      cases h5
      obtain ⟨hsh, hs2⟩ := ihb.at h3 hwb hd (by grind) hm.2
      obtain ⟨hsh2, hs3⟩ := intoDest_ok (S := S) h4 hsh
      refine ⟨by constructor <;> grind, fun ρ w => ?_⟩
      simp only [Expr.eval, Expr.late]
      refine Sim.cond (hs ρ ρ w (by grind)) (by regs) ?_ ?_
      · intro ρ1 w1 hk; refine Sim.skip ?_; regs
      · intro ρ1 w1 hk
        refine (hs3 (hs2 ρ ρ1 w1 (by grind))).mono ?_ ?_ <;> clear hs hs2 hs3 <;> regs
  · simp only [Option.bind_eq_some_iff] at h2
    obtain ⟨o1, h3, o2, h4, h5⟩ := h2
    obtain ⟨hsh, hs2⟩ := iha.at h3 hwa hd (by grind) hm.1.2
    obtain ⟨hsh2, hs3⟩ := intoDest_ok (S := S) h4 hsh
    split at h5
    · rename_i hib
      obtain ⟨x, rfl, rfl⟩ := isReg_ok hib
      have hvx : cx.vars x = true := hwb x (by simp [Expr.reads])
      cases h5
      refine ⟨by constructor <;> grind, fun ρ w => ?_⟩
      simp only [Expr.eval, Expr.late]
      refine Sim.cond (hs ρ ρ w (by grind)) (by regs) ?_ ?_
      · intro ρ1 w1 hk
        refine (hs3 (hs2 ρ ρ1 w1 (by grind))).mono ?_ ?_ <;> clear hs hs2 hs3 <;> regs
      · intro ρ1 w1 hk; refine Sim.skip ?_; regs
    · simp only [Option.bind_eq_some_iff] at h5
      obtain ⟨o3, h6, o4, h7, h8⟩ := h5
      cases h8
      obtain ⟨hsh3, hs4⟩ := ihb.at h6 hwb (by clear hs hs2 hs3 iha ihb ihc; regs) (fun d hdd => by
        cases hsh2 with
        | inl h => exact (hc d (by grind)).2
        | inr h => exact temp_ok hwb (by grind)) hm.2
      obtain ⟨hsh4, hs5⟩ := intoDest_ok (S := S) h7 hsh3
      have hsh5 : o4.reg = o2.reg ∧ ∀ j, o4.tmps j = o2.tmps j := by grind
      clear iha ihb ihc h1 h3 h4 h6 h7
      refine ⟨by clear hs hs2 hs3 hs4 hs5; constructor <;> grind, fun ρ w => ?_⟩
      simp only [Expr.eval, Expr.late]
      refine Sim.cond (hs ρ ρ w (by grind)) (by regs) ?_ ?_
      · intro ρ1 w1 hk
        refine (hs3 (hs2 ρ ρ1 w1 (by grind))).mono ?_ ?_ <;> clear hs hs2 hs3 hs4 hs5 <;> regs
      · intro ρ1 w1 hk
        refine (hs5 (hs4 ρ ρ1 w1 (by grind))).mono ?_ ?_ <;> clear hs hs2 hs3 hs4 hs5 <;> regs

/-! ## Elements -/

def kindOf : Mode → Kind
  | .array n => .array n
  | .defaults => .defaults
  | .object => .object

def FillOk (S : Sem V W) (cx : Cx) (l : Elems) : Prop :=
  ∀ m r i t c t', genFill cx m r i l t = some (c, t') → WfL cx l → l.modAsync = false → held cx t r →
    l.reads cx.this r = false →
    (∀ j, t' j = t j) ∧ ∀ ρ ρ1 w, (∀ x, cx.vars x = true → l.reads cx.this x = true → ρ1 x = ρ x) →
      Sim S c ρ1 w (l.fill S cx.this ρ (kindOf m) (ρ1 r) i w) (fun _ ρ' => ∀ k, held cx t k → ρ' k = ρ1 k)
        (fun ρ' => ∀ k, held cx t k → ρ' k = ρ1 k)

theorem store_ok {m : Mode} {o i : Nat} {x : Bool} {k : Key} {s : Nat} {t : Tmps} {c : Code} {t' : Tmps}
    (h : store cx m o i x k s t = some (c, t')) (ho : held cx t o) (hs : held cx t s) :
    (∀ j, t' j = t j) ∧ ∀ (ρ : Regs V) (w : W) (v u : V), ρ o = v → ρ s = u →
      Sim S c ρ w (put S (kindOf m) v i x k u w) (fun _ ρ' => ∀ j, held cx t j → ρ' j = ρ j)
      (fun ρ' => ∀ j, held cx t j → ρ' j = ρ j) := by
  unfold store at h
  split at h
  · simp only [kindOf, put]
    split at h
    · rename_i hi
      cases h
      refine ⟨fun _ => rfl, fun ρ w v u hv hu => ?_⟩
      rw [if_pos hi]
      exact Sim.eff (by simp [Operand.val, idxVal, hv, hu]) (by grind) (by grind)
    · rename_i hi
      split at h
      · rename_i hx
        cases h
        refine ⟨fun _ => rfl, fun ρ w v u hv hu => ?_⟩
        rw [if_neg hi, if_pos hx]
        exact Sim.eff (by simp [Operand.val, hv, hu]) (by grind) (by grind)
      · rename_i hx
        cases h
        refine ⟨fun _ => rfl, fun ρ w v u hv hu => ?_⟩
        rw [if_neg hi, if_neg hx]
        exact Sim.eff (by simp [Operand.val, hv, hu]) (by grind) (by grind)
  · cases h
    refine ⟨fun _ => rfl, fun ρ w v u hv hu => ?_⟩
    simp only [kindOf, put]
    exact Sim.eff (by simp [Operand.val, idxVal, hv, hu]) (by grind) (by grind)
  · exact setProp_ok h ho hs

theorem fill_nil : FillOk S cx .nil := by
  intro m r i t c t' h hw hm hr hn
  simp only [genFill] at h
  cases h
  refine ⟨fun _ => rfl, fun ρ ρ1 w _ => ?_⟩
  simp only [Elems.fill]
  exact Sim.skip (by simp)

theorem fill_cons {e : Expr} {l : Elems} (x : Bool) (k : Key) (ihe : GenOk S cx e) (ihl : FillOk S cx l) :
    FillOk S cx (.cons x k e l) := by
  intro m r i t c t' h hw hm hr hn
  simp only [genFill, Option.bind_eq_bind, Option.bind_eq_some_iff] at h
  obtain ⟨o1, h1, ⟨c2, t2⟩, h2, ⟨c3, t3⟩, h3, h4⟩ := h
  dsimp only at h3 h4
  cases h4
  simp only [Elems.modAsync, Bool.or_eq_false_iff] at hm
  simp only [Elems.reads, Bool.or_eq_false_iff] at hn
  obtain ⟨⟨s1, s2⟩, hs⟩ := ihe.free h1 (fun x hx => hw x (by simp [Elems.reads, hx])) hm.1
  obtain ⟨s3, hs2⟩ := store_ok (S := S) h2 (by grind) (by grind)
  have s4 : ∀ j, freeReg cx o1.reg t2 j = t j := by clear hs hs2 ihe ihl; regs
  obtain ⟨s5, hs3⟩ := ihl _ _ _ _ _ _ h3 (fun x hx => hw x (by simp [Elems.reads, hx])) hm.2 (by grind) hn.2
  refine ⟨by grind, fun ρ ρ1 w hr => ?_⟩
  simp only [Elems.fill]
  simp only [Elems.reads, Bool.or_eq_true] at hr
  refine Sim.seq (hs ρ ρ1 w (by grind)) (fun _ h => h) ?_
  intro v ρ2 w2 ⟨hv, hk⟩
  refine Sim.seq (hs2 ρ2 w2 (ρ1 r) v (by grind) hv) (by grind) ?_
  intro _ ρ3 w3 hk2
  have := hs3 ρ ρ3 w3 (by grind)
  rw [show ρ3 r = ρ1 r by grind] at this
  refine this.mono ?_ ?_ <;> clear hs hs2 hs3 this <;> grind

end Verif.Ec
