import Verif.Ec.Alloc

/- The code of every expression does what the expression means. -/

namespace Verif.Ec

variable {V W : Type} {S : Sem V W} {cx : Cx}

/-- Only variables are read. -/
def WfE (cx : Cx) (e : Expr) : Prop := ∀ x, e.reads cx.this x = true → cx.vars x = true
def WfL (cx : Cx) (l : Elems) : Prop := ∀ x, l.reads cx.this x = true → cx.vars x = true
def WfF (cx : Cx) (f : Callee) : Prop := ∀ x, f.reads cx.this x = true → cx.vars x = true
def WfC (cx : Cx) (c : Cond) : Prop := ∀ x, c.reads cx.this x = true → cx.vars x = true

def GenOk (S : Sem V W) (cx : Cx) (e : Expr) : Prop :=
  ∀ sib dest t o, gen cx sib dest e t = some o → WfE cx e → Wants cx dest t →
    (∀ d, dest = some d → e.clob cx.this d = false) → e.modAsync = false →
    Shape cx t dest o.reg o.tmps ∧ ∀ ρ w, Sim S o.code ρ w (e.eval S cx.this ρ w)
      (fun v ρ' => ρ' o.reg = v ∧ keeps cx t dest ρ ρ') (keepsE cx t dest (e.late sib) ρ)

/-- The same with no wanted register, and with other registers which agree on the variables. -/
theorem GenOk.free {e : Expr} (he : GenOk S cx e) {sib : Bool} {t : Tmps} {o : Out} (h : gen cx sib none e t = some o)
    (hw : WfE cx e) (hm : e.modAsync = false) :
    ((cx.vars o.reg = true ∨ t o.reg = false) ∧ ∀ j, o.tmps j = true ↔ t j = true ∨ (j = o.reg ∧ cx.vars o.reg = false)) ∧
    ∀ ρ ρ1 w, (∀ x, cx.vars x = true → e.reads cx.this x = true → ρ1 x = ρ x) → Sim S o.code ρ1 w (e.eval S cx.this ρ w)
      (fun v ρ' => ρ' o.reg = v ∧ ∀ k, held cx t k → ρ' k = ρ1 k) (fun ρ' => ∀ k, held cx t k → ρ' k = ρ1 k) := by
  obtain ⟨h1, h2⟩ := he sib none t o h hw (by simp [Wants]) (by simp) hm
  refine ⟨⟨?_, ?_⟩, fun ρ ρ1 w hr => ?_⟩
  · have := h1.reg; grind
  · have := h1.tmps; grind
  · rw [e.eval_congr (ρ := ρ) (ρ' := ρ1) fun x hx => (hr x (hw x hx) hx).symm]
    refine (h2 ρ1 w).mono ?_ ?_
    · intro v ρ' h3; exact ⟨h3.1, fun k hk => h3.2 k hk (by simp)⟩
    · intro ρ' h3 k hk; exact h3 k hk (by simp)

/-- The same with a wanted register. -/
theorem GenOk.at {e : Expr} (he : GenOk S cx e) {sib : Bool} {t : Tmps} {dest : Option Nat} {o : Out}
    (h : gen cx sib dest e t = some o) (hw : WfE cx e) (hd : Wants cx dest t)
    (hc : ∀ d, dest = some d → e.clob cx.this d = false) (hm : e.modAsync = false) :
    Shape cx t dest o.reg o.tmps ∧
    ∀ ρ ρ1 w, (∀ x, cx.vars x = true → e.reads cx.this x = true → ρ1 x = ρ x) → Sim S o.code ρ1 w (e.eval S cx.this ρ w)
      (fun v ρ' => ρ' o.reg = v ∧ keeps cx t dest ρ1 ρ') (keepsE cx t dest (e.late sib) ρ1) := by
  obtain ⟨h1, h2⟩ := he sib dest t o h hw hd hc hm
  refine ⟨h1, fun ρ ρ1 w hr => ?_⟩
  rw [e.eval_congr (ρ := ρ) (ρ' := ρ1) fun x hx => (hr x (hw x hx) hx).symm]
  exact h2 ρ1 w

theorem ok_lit (c : Const) : GenOk S cx (.lit c) := by
  intro sib dest t o h hw hd hc hm
  simp only [gen, Option.bind_eq_bind, Option.bind_eq_some_iff] at h
  obtain ⟨⟨d, t1⟩, h1, h2⟩ := h
  have h3 := take_ok h1
  cases h2
  refine ⟨by constructor <;> grind, fun ρ w => ?_⟩
  simp only [Expr.eval]
  refine Sim.load ?_
  grind [keeps]

theorem ok_this : GenOk S cx .this := by
  intro sib dest t o h hw hd hc hm
  simp only [gen] at h
  cases h
  have : cx.vars cx.this = true := hw _ (by simp [Expr.reads])
  refine ⟨by constructor <;> grind, fun ρ w => ?_⟩
  simp only [Expr.eval]
  refine Sim.skip ?_
  grind [keeps]

theorem ok_local (x : Nat) : GenOk S cx (.local x) := by
  intro sib dest t o h hw hd hc hm
  simp only [gen] at h
  cases h
  have : cx.vars x = true := hw _ (by simp [Expr.reads])
  refine ⟨by constructor <;> grind, fun ρ w => ?_⟩
  simp only [Expr.eval]
  refine Sim.skip ?_
  grind [keeps]

theorem ok_var (g : Nat) (i : Bool) : GenOk S cx (.var g i) := by
  intro sib dest t o h hw hd hc hm
  simp only [gen, Option.bind_eq_bind, Option.bind_eq_some_iff] at h
  obtain ⟨⟨d, t1⟩, h1, h2⟩ := h
  have h3 := take_ok h1
  cases h2
  refine ⟨by constructor <;> grind, fun ρ w => ?_⟩
  simp only [Expr.eval]
  refine Sim.op (by simp) ?_ ?_ <;> grind [keeps, keepsE]

theorem gen_still : ∀ (e : Expr), e.still = true → ∀ (sib : Bool) (dest : Option Nat) (t : Tmps) (o : Out),
    gen cx sib dest e t = some o → o.code = .skip ∧ e.reads cx.this o.reg = true
  | .this, _, sib, dest, t, o, h => by simp only [gen] at h; cases h; simp [Expr.reads]
  | .local x, _, sib, dest, t, o, h => by simp only [gen] at h; cases h; simp [Expr.reads]
  | .pos e, hs, sib, dest, t, o, h => by
    simp only [gen] at h; simp only [Expr.still] at hs; simpa [Expr.reads] using gen_still e hs _ _ _ _ h

local macro "regs" : tactic => `(tactic| grind (splits := 40) [Wants, keeps, keepsE])

theorem ok_neg {e : Expr} (ih : GenOk S cx e) : GenOk S cx (.neg e) := by
  intro sib dest t o h hw hd hc hm
  simp only [gen, Option.bind_eq_bind, Option.bind_eq_some_iff] at h
  obtain ⟨o1, h1, ⟨d, t1⟩, h2, ⟨v, t2⟩, h3, h4⟩ := h
  dsimp only at h3 h4
  have h5 := destReg_ok h2
  have h6 := genReg_ok h3
  cases h4
  obtain ⟨⟨s1, s2, s3⟩, hs⟩ := ih.at h1 hw hd hc hm
  refine ⟨by clear hs ih; constructor <;> regs, fun ρ w => ?_⟩
  simp only [Expr.eval, Expr.late]
  by_cases hl : e.still = true
  · obtain ⟨hl1, hl2⟩ := gen_still e hl _ _ _ _ h1
    have hv := hw _ hl2
    refine Sim.seq (Sim.skip_inv hl1 (hs ρ ρ w (by grind))) (by simp) ?_
    intro u ρ1 w1 ⟨⟨hu, hk⟩, he⟩
    subst he
    refine Sim.load_seq (Sim.op ?_ ?_ ?_)
    · simp only [List.map, Operand.val]; regs
    · regs
    · regs
  · refine Sim.seq (hs ρ ρ w (by grind)) ?_ ?_
    · regs
    · intro u ρ1 w1 ⟨hu, hk⟩
      refine Sim.load_seq (Sim.op ?_ ?_ ?_)
      · simp only [List.map, Operand.val]; regs
      · regs
      · regs

theorem ok_pos {e : Expr} (ih : GenOk S cx e) : GenOk S cx (.pos e) := by
  intro sib dest t o h hw hd hc hm
  simp only [gen] at h
  have := ih false dest t o h hw hd hc hm
  simpa only [Expr.eval, Expr.late] using this

theorem ok_not {e : Expr} (twice : Bool) (ih : GenOk S cx e) : GenOk S cx (.not twice e) := by
  intro sib dest t o h hw hd hc hm
  simp only [gen, Option.bind_eq_bind, Option.bind_eq_some_iff] at h
  obtain ⟨o1, h1, ⟨d, t1⟩, h2, h4⟩ := h
  dsimp only at h4
  have h5 := take_ok h2
  obtain ⟨⟨s1, s3⟩, hs⟩ := ih.free h1 hw hm
  split at h4
  · simp only [Option.bind_eq_some_iff] at h4
    obtain ⟨⟨v, t2⟩, h3, h4⟩ := h4
    have h6 := genReg_ok h3
    dsimp only at h4
    cases h4
    refine ⟨by clear hs ih; constructor <;> regs, fun ρ w => ?_⟩
    simp only [Expr.eval, Expr.late]
    refine Sim.seq (hs ρ ρ w (by grind)) (by regs) ?_
    intro u ρ1 w1 ⟨hu, hk⟩
    refine Sim.move_seq (Sim.load_seq ?_)
    cases twice
    · refine Sim.ite (fun hq => Sim.skip ?_) (fun hq => Sim.load ?_) <;> regs
    · refine Sim.ite (fun hq => Sim.load ?_) (fun hq => Sim.skip ?_) <;> regs
  · cases h4
    refine ⟨by clear hs ih; constructor <;> regs, fun ρ w => ?_⟩
    simp only [Expr.eval, Expr.late]
    refine Sim.seq (hs ρ ρ w (by grind)) (by regs) ?_
    intro u ρ1 w1 ⟨hu, hk⟩
    refine Sim.load_seq ?_
    cases twice
    · refine Sim.ite (fun hq => Sim.skip ?_) (fun hq => Sim.load ?_) <;> regs
    · refine Sim.ite (fun hq => Sim.load ?_) (fun hq => Sim.skip ?_) <;> regs

theorem ok_unary {e : Expr} (n : Nat) (ih : GenOk S cx e) : GenOk S cx (.unary n e) := by
  intro sib dest t o h hw hd hc hm
  simp only [gen, Option.bind_eq_bind, Option.bind_eq_some_iff] at h
  obtain ⟨o1, h1, ⟨d, t1⟩, h2, h4⟩ := h
  have h5 := reuse_ok h2
  cases h4
  obtain ⟨⟨s1, s3⟩, hs⟩ := ih.free h1 hw hm
  refine ⟨by clear hs ih; constructor <;> regs, fun ρ w => ?_⟩
  simp only [Expr.eval, Expr.late]
  refine Sim.seq (hs ρ ρ w (by grind)) (by regs) ?_
  intro u ρ1 w1 ⟨hu, hk⟩
  refine Sim.op ?_ ?_ ?_
  · simp only [List.map, Operand.val]; regs
  · regs
  · regs

theorem ok_binary {a b : Expr} (n : Nat) (swap : Bool) (iha : GenOk S cx a) (ihb : GenOk S cx b) :
    GenOk S cx (.binary n swap a b) := by
  intro sib dest t o h hw hd hc hm
  simp only [gen, Option.bind_eq_bind, Option.bind_eq_some_iff] at h
  obtain ⟨o1, h1, o2, h2, ⟨d, t1⟩, h3, h4⟩ := h
  have h5 := reuse_ok h3
  cases h4
  simp only [Expr.modAsync, Bool.or_eq_false_iff] at hm
  obtain ⟨⟨s1, s2⟩, hs⟩ := iha.free h1 (fun x hx => hw x (by simp [Expr.reads, hx])) hm.1
  obtain ⟨⟨s3, s4⟩, hs2⟩ := ihb.free h2 (fun x hx => hw x (by simp [Expr.reads, hx])) hm.2
  refine ⟨by clear hs hs2 iha ihb; constructor <;> regs, fun ρ w => ?_⟩
  simp only [Expr.eval, Expr.late]
  refine Sim.seq (hs ρ ρ w (by grind)) (by regs) ?_
  intro v ρ1 w1 ⟨hv, hk⟩
  refine Sim.seq (hs2 ρ ρ1 w1 (by grind)) (by regs) ?_
  intro u ρ2 w2 ⟨hu, hk2⟩
  refine Sim.op ?_ ?_ ?_
  · cases swap <;> simp only [Bool.false_eq_true, if_true, if_false, List.map, Operand.val] <;> regs
  · regs
  · regs

theorem ok_has {e : Expr} (deep : Bool) (k : Key) (ih : GenOk S cx e) : GenOk S cx (.has deep e k) := by
  intro sib dest t o h hw hd hc hm
  simp only [gen, Option.bind_eq_bind, Option.bind_eq_some_iff] at h
  obtain ⟨o1, h1, ⟨d, t1⟩, h2, ⟨c, t2⟩, h3, h4⟩ := h
  dsimp only at h3 h4
  have h5 := destReg_ok h2
  cases h4
  obtain ⟨⟨s1, s2, s3⟩, hs⟩ := ih.at h1 hw hd hc hm
  obtain ⟨s4, hs2⟩ := hasProp_ok (S := S) h3 (by regs)
  refine ⟨by clear hs hs2 ih; constructor <;> regs, fun ρ w => ?_⟩
  simp only [Expr.eval, Expr.late]
  by_cases hl : e.still = true
  · obtain ⟨hl1, hl2⟩ := gen_still e hl _ _ _ _ h1
    have hv := hw _ hl2
    refine Sim.seq (Sim.skip_inv hl1 (hs ρ ρ w (by grind))) (by simp) ?_
    intro u ρ1 w1 ⟨⟨hu, hk⟩, he⟩
    subst he
    refine (hs2 ρ1 w1 u hu).mono ?_ ?_
    · clear hs hs2; regs
    · clear hs hs2; regs
  · refine Sim.seq (hs ρ ρ w (by grind)) ?_ ?_
    · regs
    · intro u ρ1 w1 ⟨hu, hk⟩
      refine (hs2 ρ1 w1 u hu).mono ?_ ?_
      · clear hs hs2; regs
      · clear hs hs2; regs

theorem ok_prop {e : Expr} (opt : Bool) (k : Key) (ih : GenOk S cx e) : GenOk S cx (.prop opt e k) := by
  intro sib dest t o h hw hd hc hm
  simp only [gen, Option.bind_eq_bind, Option.bind_eq_some_iff] at h
  obtain ⟨o1, h1, ⟨d, t1⟩, h2, ⟨c, t2⟩, h3, h4⟩ := h
  dsimp only at h3 h4
  have h5 := destReg_ok h2
  cases h4
  obtain ⟨⟨s1, s3⟩, hs⟩ := ih.free h1 hw hm
  obtain ⟨s4, hs2⟩ := getProp_ok (S := S) h3 (by regs)
  refine ⟨by clear hs hs2 ih; constructor <;> regs, fun ρ w => ?_⟩
  simp only [Expr.eval, Expr.late]
  refine Sim.seq (hs ρ ρ w (by grind)) (by regs) ?_
  intro u ρ1 w1 ⟨hu, hk⟩
  refine (hs2 ρ1 w1 u hu).mono ?_ ?_
  · clear hs hs2; regs
  · clear hs hs2; regs

theorem ok_elem {e : Expr} (opt : Bool) (i : Int) (ih : GenOk S cx e) : GenOk S cx (.elem opt e i) := by
  intro sib dest t o h hw hd hc hm
  simp only [gen, Option.bind_eq_bind, Option.bind_eq_some_iff] at h
  obtain ⟨o1, h1, ⟨d, t1⟩, h2, h4⟩ := h
  have h5 := destReg_ok h2
  cases h4
  obtain ⟨⟨s1, s3⟩, hs⟩ := ih.free h1 hw hm
  refine ⟨by clear hs ih; constructor <;> regs, fun ρ w => ?_⟩
  simp only [Expr.eval, Expr.late]
  refine Sim.seq (hs ρ ρ w (by grind)) (by regs) ?_
  intro u ρ1 w1 ⟨hu, hk⟩
  refine Sim.op ?_ ?_ ?_
  · simp only [List.map, Operand.val, idxVal]; regs
  · regs
  · regs

theorem ok_index {a b : Expr} (opt : Bool) (iha : GenOk S cx a) (ihb : GenOk S cx b) :
    GenOk S cx (.index opt a b) := by
  intro sib dest t o h hw hd hc hm
  simp only [gen, Option.bind_eq_bind, Option.bind_eq_some_iff] at h
  obtain ⟨o1, h1, ⟨d, t1⟩, h3, o2, h2, h4⟩ := h
  have h5 := destReg_ok h3
  dsimp only at h2
  cases h4
  simp only [Expr.modAsync, Bool.or_eq_false_iff] at hm
  obtain ⟨⟨s1, s2⟩, hs⟩ := iha.free h1 (fun x hx => hw x (by simp [Expr.reads, hx])) hm.1
  obtain ⟨⟨s3, s4⟩, hs2⟩ := ihb.free h2 (fun x hx => hw x (by simp [Expr.reads, hx])) hm.2
  refine ⟨by clear hs hs2 iha ihb; constructor <;> regs, fun ρ w => ?_⟩
  simp only [Expr.eval, Expr.late]
  refine Sim.seq (hs ρ ρ w (by grind)) (by regs) ?_
  intro v ρ1 w1 ⟨hv, hk⟩
  refine Sim.seq (hs2 ρ ρ1 w1 (by grind)) (by regs) ?_
  intro u ρ2 w2 ⟨hu, hk2⟩
  refine Sim.op ?_ ?_ ?_
  · simp only [List.map, Operand.val]; regs
  · regs
  · regs

theorem ok_slice {a b c : Expr} (iha : GenOk S cx a) (ihb : GenOk S cx b) (ihc : GenOk S cx c) :
    GenOk S cx (.slice a b c) := by
  intro sib dest t o h hw hd hc hm
  simp only [gen, Option.bind_eq_bind, Option.bind_eq_some_iff] at h
  obtain ⟨o1, h1, o2, h2, o3, h3, ⟨d, t1⟩, h4, h6⟩ := h
  have h5 := reuse_ok h4
  cases h6
  simp only [Expr.modAsync, Bool.or_eq_false_iff] at hm
  obtain ⟨⟨s1, s2⟩, hs⟩ := iha.free h1 (fun x hx => hw x (by simp [Expr.reads, hx])) hm.1.1
  obtain ⟨⟨s3, s4⟩, hs2⟩ := ihb.free h2 (fun x hx => hw x (by simp [Expr.reads, hx])) hm.1.2
  obtain ⟨⟨s5, s6⟩, hs3⟩ := ihc.free h3 (fun x hx => hw x (by simp [Expr.reads, hx])) hm.2
  refine ⟨by clear hs hs2 hs3 iha ihb ihc; constructor <;> regs, fun ρ w => ?_⟩
  simp only [Expr.eval, Expr.late]
  refine Sim.seq (hs ρ ρ w (by grind)) (by regs) ?_
  intro v ρ1 w1 ⟨hv, hk⟩
  refine Sim.seq (hs2 ρ ρ1 w1 (by grind)) (by regs) ?_
  intro u ρ2 w2 ⟨hu, hk2⟩
  refine Sim.seq (hs3 ρ ρ2 w2 (by grind)) (by regs) ?_
  intro z ρ3 w3 ⟨hz, hk3⟩
  clear hs hs2 hs3 iha ihb ihc
  have hk4 : ∀ k, held cx t k → ρ3 k = ρ k := by grind
  have hv4 : ρ3 o1.reg = v := by grind
  have hu4 : ρ3 o2.reg = u := by grind
  have hd4 : held cx t d → dest = some d := by clear hk hk2 hk3 hk4; regs
  clear hk hk2 hk3 s1 s2 s3 s4 s5 s6 h1 h2 h3 h4 h5
  refine Sim.op ?_ ?_ ?_
  · simp only [List.map, Operand.val]; regs
  · regs
  · regs

theorem ok_yield {e : Expr} (ih : GenOk S cx e) : GenOk S cx (.yield e) := by
  intro sib dest t o h hw hd hc hm
  simp only [gen, Option.bind_eq_bind, Option.bind_eq_some_iff] at h
  obtain ⟨o1, h1, ⟨d, t1⟩, h2, h4⟩ := h
  have h5 := destReg_ok h2
  cases h4
  obtain ⟨⟨s1, s2, s3⟩, hs⟩ := ih.at h1 hw hd hc hm
  refine ⟨by clear hs ih; constructor <;> regs, fun ρ w => ?_⟩
  simp only [Expr.eval, Expr.late]
  by_cases hl : e.still = true
  · obtain ⟨hl1, hl2⟩ := gen_still e hl _ _ _ _ h1
    have hv := hw _ hl2
    refine Sim.seq (Sim.skip_inv hl1 (hs ρ ρ w (by grind))) (by simp) ?_
    intro u ρ1 w1 ⟨⟨hu, hk⟩, he⟩
    subst he
    refine Sim.op ?_ ?_ ?_
    · simp only [List.map, Operand.val]; regs
    · regs
    · regs
  · refine Sim.seq (hs ρ ρ w (by grind)) ?_ ?_
    · regs
    · intro u ρ1 w1 ⟨hu, hk⟩
      refine Sim.op ?_ ?_ ?_
      · simp only [List.map, Operand.val]; regs
      · regs
      · regs

theorem temp_ok {e : Expr} (hw : WfE cx e) {d : Nat} (hd : cx.vars d = false) : e.clob cx.this d = false := by
  refine e.clob_reads ?_
  cases h : e.reads cx.this d with
  | false => rfl
  | true => have := hw d h; grind

theorem logicReg_ok {dest : Option Nat} {l r : Nat} {t : Tmps} {k : Nat} {t' : Tmps}
    (h : logicReg cx dest l r t = some (k, t')) :
    (dest = some k ∧ ∀ j, t' j = t j) ∨ (dest = none ∧ cx.vars l = false ∧ k = l ∧ ∀ j, t' j = t j) ∨
    (dest = none ∧ cx.vars l = true ∧ cx.vars r = false ∧ k = r ∧ ∀ j, t' j = t j) ∨
    (dest = none ∧ cx.vars l = true ∧ cx.vars r = true ∧ cx.vars k = false ∧ t k = false ∧
      ∀ j, t' j = if j = k then true else t j) := by
  unfold logicReg at h
  split at h
  · grind
  · split at h
    · have := genReg_ok h; grind
    · grind

theorem ok_logic {a b : Expr} (isAnd : Bool) (iha : GenOk S cx a) (ihb : GenOk S cx b) :
    GenOk S cx (.logic isAnd a b) := by
  intro sib dest t o h hw hd hc hm
  simp only [gen, Option.bind_eq_bind, Option.bind_eq_some_iff] at h
  obtain ⟨o1, h1, o2, h2, ⟨d, t1⟩, h3, h4⟩ := h
  have h5 := logicReg_ok h3
  cases h4
  simp only [Expr.modAsync, Bool.or_eq_false_iff] at hm
  obtain ⟨⟨s1, s2⟩, hs⟩ := iha.free h1 (fun x hx => hw x (by simp [Expr.reads, hx])) hm.1
  have hwb : WfE cx b := fun x hx => hw x (by simp [Expr.reads, hx])
  obtain ⟨dest', hd'⟩ : ∃ d', d' = (if cx.vars o1.reg then none else some o1.reg) := ⟨_, rfl⟩
  rw [← hd'] at h2
  have hd2 : (cx.vars o1.reg = true ∧ dest' = none) ∨ (cx.vars o1.reg = false ∧ dest' = some o1.reg) := by
    cases hv : cx.vars o1.reg <;> simp [hd', hv]
  clear hd'
  obtain ⟨⟨s3, s4, s5⟩, hs2⟩ := ihb.at h2 hwb (by regs) (fun d hd => temp_ok hwb (by grind)) hm.2
  clear h1 h2 h3 hc iha ihb
  refine ⟨?_, fun ρ w => ?_⟩
  · clear hs hs2
    constructor <;> simp only [logicEnd] <;> (try split) <;> regs
  · simp only [Expr.eval, Expr.late]
    refine Sim.seq (hs ρ ρ w (by grind)) (by regs) ?_
    intro v ρ1 w1 ⟨hv, hk⟩
    have hb := hs2 ρ ρ1 w1 (by grind)
    clear hs hs2
    have hb2 : Sim S (o2.code ;; (if d ≠ o2.reg ∧ o1.reg ≠ o2.reg then Code.move d o2.reg else Code.skip)) ρ1 w1
        (b.eval S cx.this ρ w1)
        (fun u ρ' => (ρ' (if o1.reg = o2.reg then o1.reg else d) = u) ∧ keeps cx t dest ρ ρ') (keeps cx t none ρ) := by
      refine Sim.last hb (by regs) ?_
      intro u ρ2 w2 ⟨hu, hk2⟩
      split
      · refine Sim.move ?_; regs
      · refine Sim.skip ?_; regs
    have he2 : ∀ ρ', keeps cx t none ρ ρ' → keepsE cx t dest true ρ ρ' := by regs
    simp only [logicEnd]
    split
    · rename_i hq
      cases isAnd <;> simp only [Bool.false_eq_true, if_true, if_false]
      · refine Sim.ite (fun hq => ?_) (fun hq => ?_)
        · rw [hv] at hq; simp only [hq, beq_false, Bool.not_true, Bool.false_eq_true, if_false]
          rw [if_pos (by regs)]
          refine Sim.move ?_; regs
        · rw [hv] at hq; simp only [hq, beq_false, Bool.not_false, if_true]
          refine hb2.mono ?_ he2
          regs
      · refine Sim.ite (fun hq => ?_) (fun hq => ?_)
        · rw [hv] at hq; simp only [hq, beq_true, if_true]
          refine hb2.mono ?_ he2
          regs
        · rw [hv] at hq; simp only [hq, beq_true, Bool.false_eq_true, if_false]
          rw [if_pos (by regs)]
          refine Sim.move ?_; regs
    · rename_i hq
      refine Sim.last (Q1 := fun u ρ' => ρ' o1.reg = u ∧ keeps cx t dest ρ ρ') (E1 := keepsE cx t dest true ρ) ?_ (fun _ h => h) ?_
      · cases isAnd <;> simp only [Bool.false_eq_true, if_true, if_false]
        · refine Sim.ite (fun hq => ?_) (fun hq => ?_)
          · rw [hv] at hq; simp only [hq, beq_false, Bool.not_true, Bool.false_eq_true, if_false]
            refine Sim.skip ?_; regs
          · rw [hv] at hq; simp only [hq, beq_false, Bool.not_false, if_true]
            refine hb2.mono ?_ he2
            regs
        · refine Sim.ite (fun hq => ?_) (fun hq => ?_)
          · rw [hv] at hq; simp only [hq, beq_true, if_true]
            refine hb2.mono ?_ he2
            regs
          · rw [hv] at hq; simp only [hq, beq_true, Bool.false_eq_true, if_false]
            refine Sim.skip ?_; regs
      · intro u ρ2 w2 ⟨hu, hk2⟩
        split
        · refine Sim.move ?_; regs
        · refine Sim.skip ?_; regs

end Verif.Ec
