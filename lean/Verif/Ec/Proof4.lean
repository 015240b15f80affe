import Verif.Ec.Proof3

/- Calls. -/

namespace Verif.Ec

variable {V W : Type} {S : Sem V W} {cx : Cx}

local macro "regs" : tactic => `(tactic| grind (splits := 40) [Wants, keeps, keepsE])

/-- What is held after a callee. -/
structure CShape (cx : Cx) (t : Tmps) (dest : Option Nat) (g : Fun) : Prop where
  reg : dest = some g.reg ∨ cx.vars g.reg = true ∨ t g.reg = false
  tmp : ∀ d, dest = some d → cx.vars d = false → dest = some g.reg ∨ cx.vars g.reg = true
  obj : ∀ o, g.obj = some o → (cx.vars o = true ∨ t o = false) ∧ (cx.vars o = false → dest ≠ some o ∧ o ≠ g.reg)
  tmps : ∀ j, g.tmps j = true ↔ t j = true ∨ (cx.vars j = false ∧ dest ≠ some j ∧ (j = g.reg ∨ g.obj = some j))

def CalleeOk (S : Sem V W) (cx : Cx) (f : Callee) : Prop :=
  ∀ sib dest t g, genCallee cx sib dest f t = some g → WfF cx f → Wants cx dest t →
    (∀ d, dest = some d → f.clob cx.this d = false) → f.modAsync = false →
    CShape cx t dest g ∧ ∀ ρ ρ1 w, (∀ x, cx.vars x = true → f.reads cx.this x = true → ρ1 x = ρ x) →
      Sim S g.code ρ1 w (f.eval S cx.this ρ w)
        (fun v ρ' => ρ' g.reg = v.1 ∧ g.obj.map ρ' = v.2 ∧ keeps cx t dest ρ1 ρ') (keepsE cx t dest false ρ1)

theorem pack_reg {named : Bool} {l : Elems} {fill : Mode → Fill} {t : Tmps} {o : Out}
    (h : genPack cx none named l fill t = some o) : cx.vars o.reg = false := by
  unfold genPack at h
  split at h
  · simp only [genObject, Option.bind_eq_bind, Option.bind_eq_some_iff] at h
    obtain ⟨⟨d, t1⟩, h1, ⟨c, t2⟩, h2, h3⟩ := h
    cases h3
    have := take_ok h1; grind
  · simp only [genArray, Option.bind_eq_bind, Option.bind_eq_some_iff] at h
    obtain ⟨⟨d, t1⟩, h1, ⟨c, t2⟩, h2, h3⟩ := h
    cases h3
    have := take_ok h1; grind

/-- Only a variable with `+` in front stays in the register of a variable. -/
theorem gen_var : ∀ (e : Expr) {sib : Bool} {t : Tmps} {o : Out}, gen cx sib none e t = some o →
    cx.vars o.reg = true → e.still = true
  | .this, _, _, _, _, _ => rfl
  | .local x, _, _, _, _, _ => rfl
  | .pos e, _, _, _, h, hv => by simp only [gen] at h; simpa only [Expr.still] using gen_var e h hv
  | .lit _, _, _, _, h, hv => by
    simp only [gen, Option.bind_eq_bind, Option.bind_eq_some_iff] at h
    obtain ⟨⟨d, t1⟩, h1, h2⟩ := h
    cases h2; have := take_ok h1; grind
  | .var _ _, _, _, _, h, hv => by
    simp only [gen, Option.bind_eq_bind, Option.bind_eq_some_iff] at h
    obtain ⟨⟨d, t1⟩, h1, h2⟩ := h
    cases h2; have := take_ok h1; grind
  | .neg e, _, _, _, h, hv => by
    simp only [gen, Option.bind_eq_bind, Option.bind_eq_some_iff] at h
    obtain ⟨o1, h1, ⟨d, t1⟩, h2, ⟨v, t2⟩, h3, h4⟩ := h
    cases h4; have := destReg_ok h2; grind
  | .not b e, _, _, _, h, hv => by
    simp only [gen, Option.bind_eq_bind, Option.bind_eq_some_iff] at h
    obtain ⟨o1, h1, ⟨d, t1⟩, h2, h4⟩ := h
    have := take_ok h2
    dsimp only at h4
    split at h4
    · simp only [Option.bind_eq_some_iff] at h4
      obtain ⟨⟨d, t1⟩, h5, h6⟩ := h4
      cases h6; grind
    · cases h4; grind
  | .logic b a c, _, _, _, h, hv => by
    simp only [gen, Option.bind_eq_bind, Option.bind_eq_some_iff] at h
    obtain ⟨o1, h1, o2, h2, ⟨d, t1⟩, h3, h4⟩ := h
    have := logicReg_ok h3
    cases h4; grind
  | .cond c a b, _, _, _, h, hv => by
    simp only [gen, Option.bind_eq_bind, Option.bind_eq_some_iff] at h
    obtain ⟨⟨q, t1⟩, h1, h2⟩ := h
    have hn : ∀ e, isReg none e = false := by intro e; cases e <;> simp [isReg]
    simp only [hn, Bool.false_eq_true, if_false, Option.bind_eq_some_iff, intoDest, Option.bind_eq_bind] at h2
    obtain ⟨o1, h3, o2, h4, o3, h5, o4, h6, h7⟩ := h2
    cases h7
    simp only [reduceCtorEq, if_false] at h4
    simp only [Option.bind_eq_some_iff] at h4
    obtain ⟨⟨d, t2⟩, h8, h9⟩ := h4
    cases h9
    have := destReg_ok h8
    split at h6
    · cases h6; grind
    · simp only [Option.bind_some] at h6
      cases h6; grind
  | .unary n e, _, _, _, h, hv => by
    simp only [gen, Option.bind_eq_bind, Option.bind_eq_some_iff] at h
    obtain ⟨o1, h1, ⟨d, t1⟩, h2, h4⟩ := h
    cases h4; have := reuse_ok h2; grind
  | .binary n w a b, _, _, _, h, hv => by
    simp only [gen, Option.bind_eq_bind, Option.bind_eq_some_iff] at h
    obtain ⟨o1, h1, o2, h3, ⟨d, t1⟩, h2, h4⟩ := h
    cases h4; have := reuse_ok h2; grind
  | .has b e k, _, _, _, h, hv => by
    simp only [gen, Option.bind_eq_bind, Option.bind_eq_some_iff] at h
    obtain ⟨o1, h1, ⟨d, t1⟩, h2, ⟨v, t2⟩, h3, h4⟩ := h
    cases h4; have := destReg_ok h2; grind
  | .prop b e k, _, _, _, h, hv => by
    simp only [gen, Option.bind_eq_bind, Option.bind_eq_some_iff] at h
    obtain ⟨o1, h1, ⟨d, t1⟩, h2, ⟨v, t2⟩, h3, h4⟩ := h
    cases h4; have := destReg_ok h2; grind
  | .elem b e k, _, _, _, h, hv => by
    simp only [gen, Option.bind_eq_bind, Option.bind_eq_some_iff] at h
    obtain ⟨o1, h1, ⟨d, t1⟩, h2, h4⟩ := h
    cases h4; have := destReg_ok h2; grind
  | .index b e k, _, _, _, h, hv => by
    simp only [gen, Option.bind_eq_bind, Option.bind_eq_some_iff] at h
    obtain ⟨o1, h1, ⟨d, t1⟩, h2, o2, h3, h4⟩ := h
    cases h4; have := destReg_ok h2; grind
  | .slice a b c, _, _, _, h, hv => by
    simp only [gen, Option.bind_eq_bind, Option.bind_eq_some_iff] at h
    obtain ⟨o1, h1, o2, h3, o3, h5, ⟨d, t1⟩, h2, h4⟩ := h
    cases h4; have := reuse_ok h2; grind
  | .yield e, _, _, _, h, hv => by
    simp only [gen, Option.bind_eq_bind, Option.bind_eq_some_iff] at h
    obtain ⟨o1, h1, ⟨d, t1⟩, h2, h4⟩ := h
    cases h4; have := destReg_ok h2; grind
  | .array l, _, _, _, h, hv => by
    simp only [gen, genArray, Option.bind_eq_bind, Option.bind_eq_some_iff] at h
    obtain ⟨o1, ⟨⟨d, t1⟩, h1, ⟨c, t2⟩, h2, h3⟩, h4⟩ := h
    simp only [intoOther] at h4
    cases h4; cases h3; have := take_ok h1; grind
  | .object l, _, _, _, h, hv => by
    simp only [gen, genObject, Option.bind_eq_bind, Option.bind_eq_some_iff] at h
    obtain ⟨⟨d, t1⟩, h1, ⟨c, t2⟩, h2, h3⟩ := h
    cases h3; have := take_ok h1; grind
  | .func f i l, _, _, _, h, hv => by
    simp only [gen, Option.bind_eq_bind] at h
    split at h <;> simp only [Option.bind_eq_some_iff] at h
    · obtain ⟨⟨d, t1⟩, h1, h3⟩ := h
      cases h3; have := take_ok h1; grind
    · obtain ⟨⟨d, t1⟩, h1, ⟨a, t2⟩, h2, ⟨c, t3⟩, h3, h4⟩ := h
      cases h4; have := take_ok h1; grind
  | .call f named l, _, _, _, h, hv => by
    have hvn : isVar cx none = false := rfl
    simp only [gen, Option.bind_eq_bind, Option.bind_eq_some_iff, hvn, Bool.and_false, Bool.false_eq_true, if_false] at h
    obtain ⟨g, h1, h2⟩ := h
    split at h2
    · simp only [Option.bind_eq_some_iff, callArray, Option.bind_eq_bind] at h2
      obtain ⟨o1, h3, ⟨c, d, t1⟩, h4, h5⟩ := h2
      cases h5
      have := pack_reg h3
      simp only [Option.getD_none] at hv
      grind
    · split at h2
      · simp only [Option.bind_eq_some_iff] at h2
        obtain ⟨⟨d, t1⟩, h3, h4⟩ := h2
        cases h4; have := take_ok h3; grind
      · split at h2
        · simp only [Option.bind_eq_some_iff] at h2
          obtain ⟨o1, h5, ⟨d, t1⟩, h3, h4⟩ := h2
          cases h4; have := reuse_ok h3; grind
        · simp only [Option.bind_eq_some_iff] at h2
          obtain ⟨⟨k, t1⟩, h3, ⟨c, t2⟩, h5, h4⟩ := h2
          cases h4
          have := genRange_ok h3
          have := this.1 k (by omega) (by omega)
          simp only [Option.getD_none] at hv
          grind
  | .async f named l, _, _, _, h, hv => by
    simp only [gen, Option.bind_eq_bind, Option.bind_eq_some_iff, asyncEnd, ne_eq, not_true_eq_false, false_and, if_false] at h
    obtain ⟨⟨k, t1⟩, h1, g, h2, o1, h3, ⟨c, d, t2⟩, ⟨⟨a, t3⟩, h4, ⟨x, t4⟩, h5, h6⟩, h7⟩ := h
    cases h7
    cases h6
    have := take_ok h4
    simp only [Option.getD_none] at hv
    grind

theorem gen_var_reads (e : Expr) {sib : Bool} {t : Tmps} {o : Out} (h : gen cx sib none e t = some o)
    (hv : cx.vars o.reg = true) : e.reads cx.this o.reg = true :=
  (gen_still e (gen_var e h hv) _ _ _ _ h).2

theorem callee_fn {e : Expr} (ih : GenOk S cx e) : CalleeOk S cx (.fn e) := by
  intro sib dest t g h hw hd hc hm
  simp only [genCallee, Option.bind_eq_bind, Option.bind_eq_some_iff] at h
  obtain ⟨o1, h1, h2⟩ := h
  cases h2
  obtain ⟨⟨s1, s2, s3⟩, hs⟩ := ih.at h1 hw hd hc hm
  refine ⟨by clear hs ih; constructor <;> regs, fun ρ ρ1 w hr => ?_⟩
  simp only [Callee.eval]
  refine Sim.ret ?_
  refine (hs ρ ρ1 w hr).mono ?_ ?_ <;> clear hs ih <;> regs

theorem callee_prop {e : Expr} (opt : Bool) (k : Key) (ih : GenOk S cx e) : CalleeOk S cx (.prop opt e k) := by
  intro sib dest t g h hw hd hc hm
  simp only [genCallee, Option.bind_eq_bind, Option.bind_eq_some_iff] at h
  obtain ⟨o1, h1, ⟨d, t1⟩, h2, ⟨c, t2⟩, h3, h4⟩ := h
  dsimp only at h3 h4
  have h5 := take_ok h2
  cases h4
  obtain ⟨⟨s1, s3⟩, hs⟩ := ih.free h1 hw hm
  have hvo := fun hv => gen_var_reads e h1 hv
  have hne : o1.reg ≠ d := by
    intro he; subst he
    by_cases hv : cx.vars o1.reg = true
    · have h6 := hvo hv
      have h7 := fun hh => hc o1.reg hh
      simp only [Callee.clob] at h7
      regs
    · clear hs ih; regs
  obtain ⟨s4, hs2⟩ := getProp_ok (S := S) h3 (by regs)
  clear ih hc
  refine ⟨by clear hs hs2; constructor <;> regs, fun ρ ρ1 w hr => ?_⟩
  simp only [Callee.eval]
  refine Sim.seq (hs ρ ρ1 w hr) (by regs) ?_
  intro u ρ2 w2 ⟨hu, hk⟩
  refine Sim.ret ?_
  refine (hs2 ρ2 w2 u hu).mono ?_ ?_
  · clear hs hs2
    intro v ρ3 ⟨hv, hk2⟩
    refine ⟨hv, ?_, by regs⟩
    simp only [Option.map_some]
    regs
  · clear hs hs2; regs

theorem callee_elem {e : Expr} (opt : Bool) (i : Int) (ih : GenOk S cx e) : CalleeOk S cx (.elem opt e i) := by
  intro sib dest t g h hw hd hc hm
  simp only [genCallee, Option.bind_eq_bind, Option.bind_eq_some_iff] at h
  obtain ⟨o1, h1, ⟨d, t1⟩, h2, h4⟩ := h
  have h5 := take_ok h2
  cases h4
  obtain ⟨⟨s1, s3⟩, hs⟩ := ih.free h1 hw hm
  have hvo := fun hv => gen_var_reads e h1 hv
  have hne : o1.reg ≠ d := by
    intro he; subst he
    by_cases hv : cx.vars o1.reg = true
    · have h6 := hvo hv
      have h7 := fun hh => hc o1.reg hh
      simp only [Callee.clob] at h7
      regs
    · clear hs ih; regs
  clear ih hc
  refine ⟨by clear hs; constructor <;> regs, fun ρ ρ1 w hr => ?_⟩
  simp only [Callee.eval]
  refine Sim.seq (hs ρ ρ1 w hr) (by regs) ?_
  intro u ρ2 w2 ⟨hu, hk⟩
  refine Sim.ret ?_
  clear hs
  refine Sim.op ?_ ?_ ?_
  · simp only [List.map, Operand.val, idxVal]; regs
  · intro v
    refine ⟨by regs, ?_, by regs⟩
    simp only [Option.map_some]
    regs
  · regs

theorem callee_index {a b : Expr} (opt : Bool) (iha : GenOk S cx a) (ihb : GenOk S cx b) :
    CalleeOk S cx (.index opt a b) := by
  intro sib dest t g h hw hd hc hm
  simp only [genCallee, Option.bind_eq_bind, Option.bind_eq_some_iff] at h
  obtain ⟨o1, h1, ⟨d, t1⟩, h2, o2, h3, h4⟩ := h
  dsimp only at h3
  have h5 := take_ok h2
  cases h4
  simp only [Callee.modAsync, Bool.or_eq_false_iff] at hm
  obtain ⟨⟨s1, s3⟩, hs⟩ := iha.free h1 (fun x hx => hw x (by simp [Callee.reads, hx])) hm.1
  obtain ⟨⟨s4, s5⟩, hs2⟩ := ihb.free h3 (fun x hx => hw x (by simp [Callee.reads, hx])) hm.2
  have hvo := fun hv => gen_var_reads a h1 hv
  have hne : o1.reg ≠ d := by
    intro he; subst he
    by_cases hv : cx.vars o1.reg = true
    · have h6 := hvo hv
      have h7 := fun hh => hc o1.reg hh
      simp only [Callee.clob] at h7
      regs
    · clear hs hs2 iha ihb; regs
  clear iha ihb hc
  refine ⟨by clear hs hs2; constructor <;> regs, fun ρ ρ1 w hr => ?_⟩
  simp only [Callee.eval]
  simp only [Callee.reads, Bool.or_eq_true] at hr
  refine Sim.seq (hs ρ ρ1 w (by grind)) (by regs) ?_
  intro u ρ2 w2 ⟨hu, hk⟩
  refine Sim.seq (hs2 ρ ρ2 w2 (by grind)) (by regs) ?_
  intro z ρ3 w3 ⟨hz, hk2⟩
  refine Sim.ret ?_
  clear hs hs2
  refine Sim.op ?_ ?_ ?_
  · simp only [List.map, Operand.val]; regs
  · intro v
    refine ⟨by regs, ?_, by regs⟩
    simp only [Option.map_some]
    regs
  · regs

theorem callee_module (g : Nat) : CalleeOk S cx (.module g) := by
  intro sib dest t g h hw hd hc hm
  simp only [genCallee, Option.bind_eq_bind, Option.bind_eq_some_iff] at h
  obtain ⟨⟨d, t1⟩, h2, h4⟩ := h
  have h5 := take_ok h2
  cases h4
  refine ⟨by constructor <;> regs, fun ρ ρ1 w hr => ?_⟩
  simp only [Callee.eval]
  refine Sim.ret ?_
  refine Sim.op rfl ?_ ?_
  · intro v; refine ⟨by regs, rfl, by regs⟩
  · regs

/-! ## Arguments -/

def regList (ρ : Regs V) (k : Nat) : Nat → List V
  | 0 => []
  | n + 1 => ρ k :: regList ρ (k + 1) n

theorem argRegs_map (ρ : Regs V) (k n : Nat) : (argRegs k n).map (Operand.val S ρ) = regList ρ k n := by
  induction n generalizing k with
  | zero => rfl
  | succ n ih => simp only [argRegs, List.map, Operand.val, regList, ih]

theorem regList_congr {ρ ρ' : Regs V} {k n : Nat} (h : ∀ j, k ≤ j → j < k + n → ρ' j = ρ j) :
    regList ρ' k n = regList ρ k n := by
  induction n generalizing k with
  | zero => rfl
  | succ n ih => simp only [regList]; rw [h k (by omega) (by omega), ih fun j h1 h2 => h j (by omega) (by omega)]

def ArgsOk (S : Sem V W) (cx : Cx) (l : Elems) : Prop :=
  ∀ k t c t', genArgs cx k l t = some (c, t') → WfL cx l → l.modAsync = false →
    (∀ j, k ≤ j → j < k + l.length → cx.vars j = false ∧ t j = true) →
    (∀ j, t' j = t j) ∧ ∀ ρ ρ1 w, (∀ x, cx.vars x = true → l.reads cx.this x = true → ρ1 x = ρ x) →
      Sim S c ρ1 w (l.vals S cx.this ρ w)
        (fun vs ρ' => regList ρ' k l.length = vs ∧ ∀ j, held cx t j → j < k ∨ k + l.length ≤ j → ρ' j = ρ1 j)
        (fun ρ' => ∀ j, held cx t j → j < k ∨ k + l.length ≤ j → ρ' j = ρ1 j)

theorem args_nil : ArgsOk S cx .nil := by
  intro k t c t' h hw hm hk
  simp only [genArgs] at h
  cases h
  refine ⟨fun _ => rfl, fun ρ ρ1 w _ => ?_⟩
  simp only [Elems.vals]
  exact Sim.skip (by simp [regList, Elems.length])

theorem args_cons {e : Expr} {l : Elems} (x : Bool) (q : Key) (ihe : GenOk S cx e) (ihl : ArgsOk S cx l) :
    ArgsOk S cx (.cons x q e l) := by
  intro k t c t' h hw hm hk
  simp only [genArgs, Option.bind_eq_bind, Option.bind_eq_some_iff] at h
  obtain ⟨o1, h1, ⟨c2, t2⟩, h2, h3⟩ := h
  cases h3
  simp only [Elems.length] at hk ⊢
  simp only [Elems.modAsync, Bool.or_eq_false_iff] at hm
  have hwe : WfE cx e := fun x hx => hw x (by simp [Elems.reads, hx])
  have hkk := hk k (by omega) (by omega)
  obtain ⟨⟨s1, s2, s3⟩, hs⟩ := ihe.at h1 hwe (by regs) (fun d hd => temp_ok hwe (by grind)) hm.1
  have s4 : ∀ j, o1.tmps j = t j := by clear hs ihe ihl; regs
  obtain ⟨s5, hs2⟩ := ihl _ _ _ _ h2 (fun x hx => hw x (by simp [Elems.reads, hx])) hm.2 (by grind)
  refine ⟨by grind, fun ρ ρ1 w hr => ?_⟩
  simp only [Elems.vals]
  simp only [Elems.reads, Bool.or_eq_true] at hr
  refine Sim.seq (hs ρ ρ1 w (by grind)) (by regs) ?_
  intro v ρ2 w2 ⟨hv, hkp⟩
  have key : Sim S c2 (upd ρ2 k v) w2 ((l.vals S cx.this ρ >>- fun vs => ret (v :: vs)) w2)
        (fun vs ρ' => regList ρ' k (l.length + 1) = vs ∧ ∀ j, held cx t j → j < k ∨ k + (l.length + 1) ≤ j → ρ' j = ρ1 j)
        (fun ρ' => ∀ j, held cx t j → j < k ∨ k + (l.length + 1) ≤ j → ρ' j = ρ1 j) := by
    refine Sim.ret ?_
    refine (hs2 ρ (upd ρ2 k v) w2 ?_).mono ?_ ?_
    · clear hs hs2 ihe ihl; regs
    · clear hs hs2 ihe ihl
      intro vs ρ3 ⟨h5, h6⟩
      refine ⟨?_, by regs⟩
      simp only [regList, h5]
      have := h6 k (by grind) (by omega)
      rw [this]
      simp [upd]
    · clear hs hs2 ihe ihl; regs
  unfold moveTo
  split
  · rename_i he
    refine Sim.skip_seq ?_
    have : upd ρ2 k v = ρ2 := by funext j; simp only [upd]; split <;> grind
    rwa [this] at key
  · refine Sim.move_seq ?_
    rwa [hv]

theorem freeRange_ap (d k n : Nat) (t : Tmps) (j : Nat) :
    freeRange cx d k n t j = if k ≤ j ∧ j < k + n ∧ j ≠ d ∧ cx.vars j = false then false else t j := by
  induction n generalizing t with
  | zero => simp only [freeRange]; grind
  | succ n ih => simp only [freeRange, ih]; grind

theorem callCode_ok {d : Nat} {g : Fun} {args : List Operand} {vs : List V} {ρ : Regs V} {w : W} {v : V × Option V}
    {Q : V → Regs V → Prop} {E : Regs V → Prop} (h1 : ρ g.reg = v.1) (h2 : g.obj.map ρ = v.2)
    (h3 : args.map (Operand.val S ρ) = vs) (hq : ∀ u, Q u (upd ρ d u)) (he : E ρ) :
    Sim S (callCode d g args) ρ w (callWith S v vs w) Q E := by
  unfold callCode callWith
  rw [← h2]
  cases g.obj with
  | none => exact Sim.op (by simp [Operand.val, h1, h3]) hq he
  | some o => exact Sim.op (by simp [Operand.val, h1, h3]) hq he

theorem freeFun_ap (g : Fun) (t : Tmps) (j : Nat) :
    freeFun cx g t j = if cx.vars j = false ∧ (j = g.reg ∨ g.obj = some j) then false else t j := by
  unfold freeFun
  cases g.obj <;> simp only <;> grind

end Verif.Ec
