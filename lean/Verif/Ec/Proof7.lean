import Verif.Ec.Proof6

/- Statements. -/

namespace Verif.Ec

variable {V W : Type} {S : Sem V W} {cx : Cx}

local macro "regs" : tactic => `(tactic| grind (splits := 40) [Wants, keeps, keepsE])

/-- `g` is not a variable in a register. -/
def AssignOk (S : Sem V W) (cx : Cx) (g : Target) : Prop :=
  ∀ op src t c t', assign cx op src g t = some (c, t') → (∀ x, g.reads cx.this x = true → cx.vars x = true) →
    g.modAsync = false → held cx t src →
    (∀ j, t' j = if j = src ∧ cx.vars j = false then false else t j) ∧
    ∀ ρ ρ1 w v, (∀ x, cx.vars x = true → ρ1 x = ρ x) → ρ1 src = v →
      Sim S c ρ1 w (g.set S cx.this ρ op v w)
        (fun env ρ' => env = ρ ∧ ∀ j, held cx t j → (j ≠ src ∨ cx.vars j = true) → ρ' j = ρ1 j)
        (fun ρ' => ∀ j, held cx t j → (j ≠ src ∨ cx.vars j = true) → ρ' j = ρ1 j)

theorem withOp_ok {op : Option Nat} {get : Nat → Code} {src : Nat} {t t' : Tmps} {c : Code} {s : Nat} {r : Option Nat}
    (h : withOp cx op get src t = some (c, s, t', r)) (hs : held cx t src) :
    held cx t' s ∧ (∀ j, freeOpt cx r t' j = t j) ∧ (∀ j, t j = true → t' j = true) ∧
    (∀ j, t' j = true → t j = true ∨ (r = some j ∧ cx.vars j = false)) ∧
    (∀ j, r = some j → t j = false ∧ cx.vars j = false) ∧
    ∀ (ρ : Regs V) (w : W) (v : V) (old : Comp V W V), ρ src = v →
      (∀ d, ¬ held cx t d → Sim S (get d) ρ w (old w) (fun u ρ' => ρ' d = u ∧ ∀ j, held cx t j → ρ' j = ρ j) (fun ρ' => ∀ j, held cx t j → ρ' j = ρ j)) →
      Sim S c ρ w (combine S op old v w) (fun u ρ' => ρ' s = u ∧ ∀ j, held cx t j → ρ' j = ρ j) (fun ρ' => ∀ j, held cx t j → ρ' j = ρ j) := by
  unfold withOp at h
  cases op with
  | none =>
    simp only at h
    cases h
    refine ⟨hs, fun _ => rfl, fun _ h => h, fun _ h => .inl h, by simp, fun ρ w v old hv _ => ?_⟩
    simp only [combine]
    exact Sim.skip (by grind)
  | some n =>
    simp only [Option.bind_eq_bind, Option.bind_eq_some_iff] at h
    obtain ⟨⟨d, t1⟩, h1, h2⟩ := h
    have h3 := genReg_ok h1
    cases h2
    refine ⟨by grind, by simp only [freeOpt]; grind, by grind, by grind, by grind, fun ρ w v old hv ho => ?_⟩
    simp only [combine]
    refine Sim.seq (ho d (by grind)) (by grind) ?_
    intro u ρ1 w1 ⟨h4, h5⟩
    refine Sim.op ?_ ?_ ?_
    · simp only [List.map, Operand.val]; grind
    · grind
    · grind

theorem assign_var (g : Nat) : AssignOk S cx (.var g) := by
  intro op src t c t' h hw hm hs
  simp only [assign, Option.bind_eq_bind, Option.bind_eq_some_iff] at h
  obtain ⟨⟨c1, s, t1, r⟩, h1, h2⟩ := h
  cases h2
  obtain ⟨s1, s2, s3, s4, s5, hs2⟩ := withOp_ok (S := S) h1 hs
  refine ⟨by grind, fun ρ ρ1 w v hr hv => ?_⟩
  simp only [Target.set]
  refine Sim.seq (hs2 ρ1 w v (S.prim (.getVar g) []) hv ?_) (by grind) ?_
  · intro d hd; refine Sim.op rfl ?_ ?_ <;> grind
  · intro u ρ2 w2 ⟨h3, h4⟩
    clear hs2
    refine Sim.ret (g := fun _ => ρ) ?_
    refine Sim.eff ?_ ?_ ?_
    · simp [Operand.val, h3]
    · grind
    · grind

theorem assign_elem (e : Expr) (i : Int) : AssignOk S cx (.elem e i) := by
  intro op src t c t' h hw hm hs
  simp only [assign, Option.bind_eq_bind, Option.bind_eq_some_iff] at h
  obtain ⟨o, h1, ⟨c1, s, t1, r⟩, h2, h3⟩ := h
  cases h3
  obtain ⟨⟨s1, s2⟩, hs1⟩ := (gen_ok (S := S) e).free h1 hw hm
  obtain ⟨s3, s4, s5, s6, s7, hs2⟩ := withOp_ok (S := S) h2 (by grind)
  refine ⟨by clear hs1 hs2; grind, fun ρ ρ1 w v hr hv => ?_⟩
  simp only [Target.set]
  refine Sim.seq (hs1 ρ ρ1 w (by grind)) (by grind) ?_
  intro b ρ2 w2 ⟨h3, h4⟩
  refine Sim.seq (hs2 ρ2 w2 v (S.prim (.get false) [b, idxVal S i]) (by grind) ?_) (by clear hs1 hs2; grind) ?_
  · intro d hd
    refine Sim.op (by simp [Operand.val, h3, idxVal]) ?_ ?_ <;> clear hs1 hs2 <;> grind
  · intro u ρ3 w3 ⟨h5, h6⟩
    clear hs1 hs2
    refine Sim.ret (g := fun _ => ρ) ?_
    refine Sim.eff ?_ ?_ ?_
    · simp only [List.map, Operand.val, idxVal]; grind
    · grind
    · grind

theorem assign_index (a b : Expr) : AssignOk S cx (.index a b) := by
  intro op src t c t' h hw hm hs
  simp only [assign, Option.bind_eq_bind, Option.bind_eq_some_iff] at h
  obtain ⟨o, h1, p, h2, ⟨c1, s, t1, r⟩, h3, h4⟩ := h
  cases h4
  simp only [Target.modAsync, Bool.or_eq_false_iff] at hm
  obtain ⟨⟨s1, s2⟩, hs1⟩ := (gen_ok (S := S) a).free h1 (fun x hx => hw x (by simp [Target.reads, hx])) hm.1
  obtain ⟨⟨s3, s4⟩, hs2⟩ := (gen_ok (S := S) b).free h2 (fun x hx => hw x (by simp [Target.reads, hx])) hm.2
  obtain ⟨s5, s6, s7, s8, s9, hs3⟩ := withOp_ok (S := S) h3 (by grind)
  have hfo : ∀ j, freeOpt cx r (freeReg cx p.reg t1) j = freeReg cx p.reg (freeOpt cx r t1) j := by
    intro j; cases r <;> simp only [freeOpt] <;> grind
  refine ⟨by clear hs1 hs2 hs3 h1 h2 h3 s5 hw hm; intro j; rw [show freeReg cx src (freeReg cx o.reg (freeOpt cx r (freeReg cx p.reg t1))) j = freeReg cx src (freeReg cx o.reg (freeReg cx p.reg p.tmps)) j by grind]; clear hfo s6 s7 s8 s9; grind, fun ρ ρ1 w v hr hv => ?_⟩
  simp only [Target.set]
  refine Sim.seq (hs1 ρ ρ1 w (by grind)) (by grind) ?_
  intro x ρ2 w2 ⟨h5, h6⟩
  refine Sim.seq (hs2 ρ ρ2 w2 (by grind)) (by grind) ?_
  intro y ρ3 w3 ⟨h7, h8⟩
  refine Sim.seq (hs3 ρ3 w3 v (S.prim (.get false) [x, y]) (by grind) ?_) (by clear hs1 hs2 hs3; grind) ?_
  · intro d hd
    clear hs1 hs2 hs3
    refine Sim.op ?_ ?_ ?_
    · simp only [List.map, Operand.val]; grind
    · grind
    · grind
  · intro u ρ4 w4 ⟨h9, h10⟩
    clear hs1 hs2 hs3
    refine Sim.ret (g := fun _ => ρ) ?_
    refine Sim.eff ?_ ?_ ?_
    · simp only [List.map, Operand.val]; grind
    · grind
    · grind

theorem assign_prop (e : Expr) (k : Key) : AssignOk S cx (.prop e k) := by
  intro op src t c t' h hw hm hs
  simp only [assign, Option.bind_eq_bind, Option.bind_eq_some_iff] at h
  obtain ⟨o, h1, h2⟩ := h
  obtain ⟨⟨s1, s2⟩, hs1⟩ := (gen_ok (S := S) e).free h1 hw hm
  cases op with
  | none =>
    simp only [Option.bind_eq_some_iff] at h2
    obtain ⟨⟨c1, t1⟩, h2, h3⟩ := h2
    cases h3
    obtain ⟨s3, hs2⟩ := setProp_ok (S := S) h2 (by grind) (by grind)
    refine ⟨by clear hs1 hs2; grind, fun ρ ρ1 w v hr hv => ?_⟩
    simp only [Target.set]
    refine Sim.seq (hs1 ρ ρ1 w (by grind)) (by grind) ?_
    intro b ρ2 w2 ⟨h3, h4⟩
    simp only [combine, andThen, ret]
    have := hs2 ρ2 w2 b v h3 (by grind)
    refine Sim.ret (g := fun _ => ρ) (m := S.prim .set [b, keyVal S k, v]) (this.mono ?_ ?_) <;> clear hs1 hs2 this <;> grind
  | some n =>
    simp only [Option.bind_eq_some_iff] at h2
    obtain ⟨⟨d, t1⟩, h2, ⟨c1, t2⟩, h3, ⟨c2, t3⟩, h4, h5⟩ := h2
    dsimp only at h3 h4
    cases h5
    have h6 := genReg_ok h2
    obtain ⟨s3, hs2⟩ := getProp_ok (S := S) h3 (by grind)
    obtain ⟨s4, hs3⟩ := setProp_ok (S := S) h4 (by grind) (by grind)
    refine ⟨by clear hs1 hs2 hs3; grind, fun ρ ρ1 w v hr hv => ?_⟩
    simp only [Target.set, combine]
    refine Sim.seq (hs1 ρ ρ1 w (by grind)) (by grind) ?_
    intro b ρ2 w2 ⟨h7, h8⟩
    have hass : ∀ w, ((S.prim (.get false) [b, keyVal S k] >>- fun u => S.prim (.op n) [u, v]) >>- fun u =>
        S.prim .set [b, keyVal S k, u] >>- fun _ => ret ρ) w =
      (S.prim (.get false) [b, keyVal S k] >>- fun u => S.prim (.op n) [u, v] >>- fun u =>
        S.prim .set [b, keyVal S k, u] >>- fun _ => ret ρ) w := by
      intro w
      simp only [andThen]
      rcases S.prim (.get false) [b, keyVal S k] w with ⟨r, w1⟩
      cases r <;> rfl
    rw [hass]
    refine Sim.seq (hs2 ρ2 w2 b h7) (by clear hs1 hs2 hs3; grind) ?_
    intro u ρ3 w3 ⟨h9, h10⟩
    have k1 : ∀ j, held cx o.tmps j → ρ3 j = ρ2 j := by clear hs1 hs2 hs3; grind
    clear h10 hs2
    refine Sim.seq (Q1 := fun v ρ' => ρ' = upd ρ3 d v) (E1 := fun ρ' => ρ' = ρ3) (Sim.op ?_ (fun _ => rfl) rfl) ?_ ?_
    · simp only [List.map, Operand.val]; clear hs1 hs3; grind
    · rintro _ rfl; clear hs1 hs3; grind
    · rintro x _ w4 rfl
      have k2 : ∀ j, held cx o.tmps j → upd ρ3 d x j = ρ2 j := by clear hs1 hs3; grind
      have := hs3 (upd ρ3 d x) w4 b x (by clear hs1 hs3; grind) (by grind)
      refine Sim.ret (g := fun _ => ρ) (this.mono ?_ ?_) <;> clear hs1 hs3 this <;> grind

theorem moveTo_seq {d s : Nat} {b : Code} {ρ : Regs V} {w : W} {α : Type} {m : Except V α × W} {Q : α → Regs V → Prop} {E : Regs V → Prop}
    (h : Sim S b (upd ρ d (ρ s)) w m Q E) : Sim S (moveTo d s ;; b) ρ w m Q E := by
  unfold moveTo
  split
  · rename_i he
    subst he
    refine Sim.skip_seq ?_
    have : upd ρ s (ρ s) = ρ := by funext j; simp only [upd]; split <;> simp_all
    rwa [this] at h
  · exact Sim.move_seq h

theorem assign_slice (e b f : Expr) : AssignOk S cx (.slice e b f) := by
  intro op src t c t' h hw hm hs
  simp only [assign, Option.bind_eq_bind, Option.bind_eq_some_iff] at h
  obtain ⟨⟨k, t1⟩, h1, p, h2, q, h3, o, h4, ⟨r, t2⟩, h5, ⟨c1, t3⟩, h6, h7⟩ := h
  dsimp only at h2 h3 h6
  cases h7
  have h8 := genRange_ok h1
  have hk := h8.1 k (by omega) (by omega)
  have hk1 := h8.1 (k + 1) (by omega) (by omega)
  have hk2 := h8.1 (k + 2) (by omega) (by omega)
  have ht1 : ∀ j, t1 j = true ↔ freeReg cx src t j = true ∨ j = k ∨ j = k + 1 ∨ j = k + 2 := by grind
  clear h8 h1
  simp only [Target.modAsync, Bool.or_eq_false_iff] at hm
  have hwe : WfE cx e := fun x hx => hw x (by simp [Target.reads, hx])
  have hwb : WfE cx b := fun x hx => hw x (by simp [Target.reads, hx])
  have hwf : WfE cx f := fun x hx => hw x (by simp [Target.reads, hx])
  obtain ⟨⟨s1, s2, s3⟩, hs1⟩ := (gen_ok (S := S) b).at h2 hwb (by regs) (fun d hd => temp_ok hwb (by grind)) hm.1.2
  rw [show p.tmps = t1 by funext j; clear hs1; grind] at h3
  obtain ⟨⟨s5, s6, s7⟩, hs2⟩ := (gen_ok (S := S) f).at h3 hwf (by regs) (fun d hd => temp_ok hwf (by grind)) hm.2
  rw [show q.tmps = t1 by funext j; clear hs1 hs2; grind] at h4
  obtain ⟨⟨s9, s10⟩, hs3⟩ := (gen_ok (S := S) e).free h4 hwe hm.1.1
  have h9 := genReg_ok h5
  obtain ⟨s11, hs4⟩ := getProp_ok (S := S) h6 (by grind)
  clear s1 s2 s3 s5 s6 s7
  have ho : o.reg ≠ k ∧ o.reg ≠ k + 1 ∧ o.reg ≠ k + 2 := by clear hs1 hs2 hs3 hs4; grind
  have hr : r ≠ k ∧ r ≠ k + 1 ∧ r ≠ k + 2 ∧ r ≠ o.reg ∧ ¬ held cx t1 r := by clear hs1 hs2 hs3 hs4; grind
  have hj : ∀ j, held cx t j → j ≠ src ∨ cx.vars j = true → held cx t1 j ∧ j ≠ k ∧ j ≠ k + 1 ∧ j ≠ k + 2 := by
    clear hs1 hs2 hs3 hs4; grind
  refine ⟨by clear hs1 hs2 hs3 hs4; grind (splits := 40), fun ρ ρ1 w v hr hv => ?_⟩
  simp only [Target.set]
  refine moveTo_seq ?_
  have k0 : ∀ j, (held cx t1 j ∧ j ≠ k ∧ j ≠ k + 1 ∧ j ≠ k + 2) → upd ρ1 (k + 2) (ρ1 src) j = ρ1 j := by grind
  have k0' : upd ρ1 (k + 2) (ρ1 src) (k + 2) = v := by grind
  generalize upd ρ1 (k + 2) (ρ1 src) = ρ2 at *
  refine Sim.seq (hs1 ρ ρ2 w (by clear hs1 hs2 hs3 hs4; grind)) (by clear hs1 hs2 hs3 hs4; regs) ?_
  intro x ρ3 w3 ⟨h10, h11⟩
  refine moveTo_seq ?_
  rw [h10]
  have k1 : ∀ j, (held cx t1 j ∧ j ≠ k ∧ j ≠ k + 1 ∧ j ≠ k + 2) → upd ρ3 k x j = ρ1 j := by clear hs1 hs2 hs3 hs4; regs
  have k1' : upd ρ3 k x k = x := by grind
  have k1c : upd ρ3 k x (k + 2) = v := by clear hs1 hs2 hs3 hs4; regs
  clear h11 k0 k0'
  generalize upd ρ3 k x = ρ4 at *
  refine Sim.seq (hs2 ρ ρ4 w3 (by clear hs1 hs2 hs3 hs4; grind)) (by clear hs1 hs2 hs3 hs4; regs) ?_
  intro y ρ5 w5 ⟨h12, h13⟩
  refine moveTo_seq ?_
  rw [h12]
  have k2 : ∀ j, (held cx t1 j ∧ j ≠ k ∧ j ≠ k + 1 ∧ j ≠ k + 2) → upd ρ5 (k + 1) y j = ρ1 j := by clear hs1 hs2 hs3 hs4; regs
  have k2' : upd ρ5 (k + 1) y k = x := by clear hs1 hs2 hs3 hs4; regs
  have k2c : upd ρ5 (k + 1) y (k + 1) = y := by grind
  have k2d : upd ρ5 (k + 1) y (k + 2) = v := by clear hs1 hs2 hs3 hs4; regs
  clear h13 k1 k1' k1c
  generalize upd ρ5 (k + 1) y = ρ6 at *
  refine Sim.seq (hs3 ρ ρ6 w5 (by clear hs1 hs2 hs3 hs4; grind)) (by clear hs1 hs2 hs3 hs4; regs) ?_
  intro z ρ7 w7 ⟨h14, h15⟩
  refine Sim.seq (hs4 ρ7 w7 z h14) ?_ ?_
  · clear hs1 hs2 hs3 hs4
    intro ρ' hh j hj1 hj2
    have := hj j hj1 hj2
    have := hh j (by grind) (by grind)
    grind
  · intro u ρ8 w8 ⟨h16, h17⟩
    clear hs1 hs2 hs3 hs4
    have k3 : ∀ j, held cx o.tmps j → ρ8 j = ρ7 j := by grind
    clear h17
    refine Sim.ret (g := fun _ => ρ) ?_
    refine Sim.op ?_ ?_ ?_
    · simp only [List.map, Operand.val]; grind
    · intro _
      refine ⟨rfl, fun j hj1 hj2 => ?_⟩
      have := hj j hj1 hj2
      grind
    · intro j hj1 hj2
      have := hj j hj1 hj2
      grind

theorem assign_none : AssignOk S cx .none := by
  intro op src t c t' h hw hm hs
  simp only [assign] at h
  cases h
  refine ⟨by grind, fun ρ ρ1 w v hr hv => ?_⟩
  simp only [Target.set]
  exact Sim.skip (by grind)

theorem assign_local (x : Nat) : AssignOk S cx (.local x) := by
  intro op src t c t' h
  simp [assign] at h

theorem assign_ok (g : Target) : AssignOk S cx g := by
  cases g with
  | «local» x => exact assign_local x
  | var g => exact assign_var g
  | prop e k => exact assign_prop e k
  | elem e i => exact assign_elem e i
  | index a b => exact assign_index a b
  | slice e b f => exact assign_slice e b f
  | none => exact assign_none

end Verif.Ec
