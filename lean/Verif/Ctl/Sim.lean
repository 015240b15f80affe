import Verif.Ctl.Post

/-
The code of each statement does what the statement means, if the statement is `Safe`.
-/
namespace Verif.Ctl

variable {σ V : Type}

def WOk (w : Kind → Want) (d : Nat) : Prop := ∀ k r, w k = .at (some r) → r < d

def Sim (S : Sem σ V) (P : Prog) (s : Stmt) : Prop := ∀ (x : Ctx) (K : Tgts) (w : Kind → Want) (st : St), XOk x → WOk w x.d →
  Safe x.top x.last x.d w s → KnownS S s → Lk P K x.tries (comp x s st) → LkB P K w (comp x s st) →
  ∀ (n : Nat) (cf : Cfg σ V), cf.pc = st.pc → cf.hnd = hndOf K x.top →
    Post S P K w x.d x.fin n cf (comp x s st).pc (comp x s st).breaks (comp x s st).returns (exec S n s (x.env.map cf.regs) cf.mem)

variable {S : Sem σ V} {P : Prog}

theorem XOk.fin {x : Ctx} (h : XOk x) : ∀ r, x.fin = some r → r ≤ x.d := by
  intro r hr
  simp only [Ctx.fin, Option.map_eq_some_iff] at hr
  obtain ⟨t, h1, rfl⟩ := hr
  exact Nat.le_of_lt (h.tries t (List.mem_of_find?_eq_some h1))

theorem inLoop_last (x : Ctx) : x.inLoop.last = inLoop x.top x.last := by
  simp only [Ctx.inLoop, inLoop]; cases x.top <;> rfl

theorem XOk.inLoop {x : Ctx} (h : XOk x) : XOk x.inLoop := ⟨h.env, h.tries, h.order, h.last.inLoop⟩

theorem WOk.loop {x : Ctx} (hx : XOk x) {w : Kind → Want} (h : WOk w x.d) : WOk (loopWant w x.top) x.d := by
  have ht : ∀ r, x.top = some r → r < x.d := fun r hr => by
    obtain ⟨t, h1, h2⟩ := List.mem_map.1 (top_mem x r hr)
    exact h2 ▸ hx.tries t h1
  intro k r hk
  cases k <;> simp only [loopWant] at hk
  · exact ht r (Want.at.inj hk)
  · exact ht r (Want.at.inj hk)
  · exact h .fall r hk

theorem sim_skip : Sim S P .skip := by
  intro x K w st hx hw hs hk hl hb n cf hpc hh
  exact ⟨0, cf, .refl _, hpc, rfl, rfl, .refl _ _⟩

theorem sim_act (i : Nat) : Sim S P (.act i) := by
  intro x K w st hx hw hs hk hl hb n cf hpc hh
  have h := run_eval (S := S) (hl.at hpc)
  simp only [exec]
  split at h
  · rename_i v s hv
    rw [hv]
    exact .normal ⟨h.reach, by simp [comp, St.pc, St.emit, hpc], rfl, rfl, h.regs⟩
  · rename_i v s hv
    rw [hv]
    exact .thr (h _)

theorem sim_seq {a b : Stmt} (ha : Sim S P a) (hb' : Sim S P b) : Sim S P (.seq a b) := by
  intro x K w st hx hw hs hk hl hb n cf hpc hh
  have hg := comp_grows b x (comp x a st)
  have h1 := ha x K w st hx hw hs.1 hk.1 (hl.of_grows' hg.toGrows' hx.tries) (hb.of_grows hg) n cf hpc hh
  simp only [exec]
  refine h1.seq hg.breaks hg.returns ?_ ?_
  · intro hne
    split
    · rename_i s hr; exact absurd hr (hne s)
    · rfl
  · intro s hr j cf' h
    rw [hr]
    have h2 := hb' x K w _ hx hw hs.2 hk.2 hl hb n cf' h.pc (h.hnd.trans hh)
    rw [h.mem, h.regs.map hx.env] at h2
    exact h2.after h hx.fin (by omega)

theorem sim_ite {c : Cond} {t : Stmt} (ht : Sim S P t) : Sim S P (.ite c t) := by
  intro x K w st hx hw hs hk hl hb n cf hpc hh
  simp only [comp] at hl hb ⊢
  simp only [exec]
  have g1 := comp_grows t x (genCond x c false st).1
  have l1 := hl.of_grows' (grows_setAll (d := x.d) _ _ _).toGrows' hx.tries
  have b1 := hb.of_grows (grows_setAll (d := x.d) _ _ _)
  have hj := cond_sim (S := S) hx.env hk.1 hs.1 (l1.of_grows' g1.toGrows' hx.tries) (F := (comp x t (genCond x c false st).1).pc)
    (fun e he => hl.log (e, _) (by simp only [St.setAll, List.mem_append, List.mem_map]; exact .inr ⟨e, he, rfl⟩)) hpc
  rcases hr : evalC S (x.env.map cf.regs) c cf.mem with ⟨_ | _, s⟩ | ⟨v, s⟩ <;> rw [hr] at hj <;> simp only
  · obtain ⟨k, c', h⟩ := hj
    exact .normal h
  · obtain ⟨k, c', h⟩ := hj
    have h2 := ht x K w _ hx hw hs.2 hk.2 l1 b1 n c' h.pc (h.hnd.trans hh)
    rw [h.mem, h.regs.map hx.env] at h2
    exact h2.after h hx.fin (by omega)
  · obtain ⟨k, c', h⟩ := hj
    exact .thr h

theorem sim_itee {c : Cond} {t e : Stmt} (ht : Sim S P t) (he' : Sim S P e) : Sim S P (.itee c t e) := by
  intro x K w st hx hw hs hk hl hb n cf hpc hh
  simp only [comp] at hl hb ⊢
  simp only [exec]
  have g1 := comp_grows t x (genCond x c false st).1
  generalize hs2 : comp x t (genCond x c false st).1 = s2 at *
  generalize hJ : (genCond x c false st).2 = J at *
  have g2 := comp_grows e x ((s2.emitJ .jmp).setAll J (s2.emitJ .jmp).pc)
  generalize hs3 : comp x e ((s2.emitJ .jmp).setAll J (s2.emitJ .jmp).pc) = s3 at *
  have l3 := hl.of_grows' (grows_set (d := x.d) s3 s2.n s3.pc).toGrows' hx.tries
  have b3 := hb.of_grows (grows_set (d := x.d) s3 s2.n s3.pc)
  have l2' := l3.of_grows' g2.toGrows' hx.tries
  have b2' := b3.of_grows g2
  have l2 := l2'.of_grows' (grows_setAll (d := x.d) _ _ _).toGrows' hx.tries
  have b2 := b2'.of_grows (grows_setAll (d := x.d) _ _ _)
  have gJ := grows_emitJ (d := x.d) s2 .jmp
  have hj := cond_sim (S := S) hx.env hk.1 hs.1 (l2.of_grows' (g1.trans gJ).toGrows' hx.tries) (F := (s2.emitJ .jmp).pc)
    (fun e he => l2'.log (e, _) (by simp only [St.setAll, List.mem_append, List.mem_map]; rw [hJ] at he; exact .inr ⟨e, he, rfl⟩)) hpc
  have hend : P.tgt s2.n = some s3.pc := hl.log (s2.n, s3.pc) (by simp [St.set])
  rcases hr : evalC S (x.env.map cf.regs) c cf.mem with ⟨_ | _, s⟩ | ⟨v, s⟩ <;> rw [hr] at hj <;> simp only
  · obtain ⟨k, c', h⟩ := hj
    subst hs3
    have h2 := he' x K w _ hx hw hs.2.2 hk.2.2 l3 b3 n c' h.pc (h.hnd.trans hh)
    rw [h.mem, h.regs.map hx.env] at h2
    exact h2.after h hx.fin (by omega)
  · obtain ⟨k, c', h⟩ := hj
    subst hs2
    have h2 := ht x K w _ hx hw hs.2.1 hk.2.1 (l2.of_grows' gJ.toGrows' hx.tries) (b2.of_grows gJ) n c' h.pc (h.hnd.trans hh)
    rw [h.mem, h.regs.map hx.env] at h2
    refine (h2.seq (fun p hp => g2.breaks p hp) (fun p hp => g2.returns p hp) (fun _ => rfl) ?_).after h hx.fin (by omega)
    intro s' hr' j cf' h'
    rw [hr']
    have h3 := run_jmp (S := S) (l2.atJ h'.pc) hend x.d
    rw [h'.mem] at h3
    exact .normal (h'.trans h3)
  · obtain ⟨k, c', h⟩ := hj
    exact .thr h

/-- Targets in a loop. -/
theorem lkB_loop {K : Tgts} {ts : List (Nat × Bool)} {w : Kind → Want} {st : St} {cont : Nat} {old : List (Kind × Nat)} {top : Option Nat}
    (hl : Lk P K ts (st.finishBC (some cont) old)) (hb : LkB P K w (st.finishBC (some cont) old)) :
    LkB P (K.loop st.pc cont) (loopWant w top) st := by
  rintro ⟨k, e⟩ hp hw
  cases k with
  | brk => exact hl.log (e, st.pc) (List.mem_append_right _ (List.mem_filterMap.2 ⟨_, hp, rfl⟩))
  | cont => exact hl.log (e, cont) (List.mem_append_right _ (List.mem_filterMap.2 ⟨_, hp, rfl⟩))
  | fall => exact hb (.fall, e) (List.mem_append_left _ (List.mem_filter.2 ⟨hp, rfl⟩)) hw

theorem Lk.loop {K : Tgts} {ts : List (Nat × Bool)} {st : St} (h : Lk P K ts st) (brk cont : Nat) : Lk P (K.loop brk cont) ts st :=
  ⟨h.code, h.log, h.ret, h.kids⟩

theorem falsy_eval {c : Cond} (hf : c.falsy = true) (hk : Known S c) (env : List V) (s : σ) : evalC S env c s = .ok false s := by
  cases c with
  | leaf i known =>
    simp only [Cond.falsy, beq_iff_eq] at hf
    subst hf
    obtain ⟨v, h1, h2⟩ := hk env s
    simp [evalC, h1, h2]
  | not c => cases hf
  | and a b => cases hf
  | or a b => cases hf

theorem sim_while {c : Cond} {b : Stmt} (ib : Sim S P b) : Sim S P (.while c b) := by
  intro x K w st hx hw hs hk hl hb n cf hpc hh
  simp only [comp] at hl hb ⊢
  simp only [exec]
  split
  · rename_i hf
    cases n with
    | zero => exact ⟨0, cf, .refl _, by omega⟩
    | succ n =>
      rw [loopW, falsy_eval hf hk.1]
      exact ⟨0, cf, .refl _, hpc, rfl, rfl, .refl _ _⟩
  · rename_i hf
    rw [if_neg hf] at hl hb
    have g1 := (genCond_grows x.inLoop c false { st with breaks := [] }).grows x.d
    rcases hg1 : genCond x.inLoop c false { st with breaks := [] } with ⟨s1, J⟩
    rw [hg1] at hl hb g1
    simp only at hl hb g1 ⊢
    have g2 := comp_grows b x.inLoop s1
    generalize hs2 : comp x.inLoop b s1 = s2 at hl hb g2 ⊢
    have g3 := (genCond_grows x.inLoop c true s2).grows x.d
    have c3 := genCond_grows x.inLoop c true s2
    rcases hg3 : genCond x.inLoop c true s2 with ⟨s3, J'⟩
    rw [hg3] at hl hb g3 c3
    simp only at hl hb g3 c3 ⊢
    have lf := hl.of_grows' (grows_finishBC (d := x.d) _ _ _) hx.tries
    have l3 := lf.of_grows' ((grows_setAll (d := x.d) _ _ _).trans (grows_setAll (d := x.d) _ _ _)).toGrows' hx.tries
    have l2 := l3.of_grows' g3.toGrows' hx.tries
    have l1 := l2.of_grows' g2.toGrows' hx.tries
    have hJ : ∀ e ∈ J, P.tgt e = some s3.pc := fun e he => lf.log (e, s3.pc)
      (List.mem_append_right _ (List.mem_map.2 ⟨e, he, rfl⟩))
    have hJ' : ∀ e ∈ J', P.tgt e = some s1.pc := fun e he => lf.log (e, s1.pc)
      (List.mem_append_left _ (List.mem_append_right _ (List.mem_map.2 ⟨e, he, rfl⟩)))
    have hb2 : LkB P (K.loop s3.pc st.pc) (loopWant w x.top) s2 := by
      intro p hp
      exact lkB_loop hl hb p (by rw [← c3.breaks] at hp; exact hp)
    subst hs2
    refine (loopW_sim (env := x.env) (top := x.top) (start := st.pc) (pb := s1.pc) (bottom := (comp x.inLoop b s1).pc) (pe := s3.pc)
      hx.env hx.fin (B' := (comp x.inLoop b s1).breaks) (R' := (comp x.inLoop b s1).returns) ?_ ?_ ?_ ?_ ?_ n (Nat.le_refl _)).1 cf ⟨hpc, hh, rfl⟩
    · rintro ⟨k, e⟩ hp rfl
      refine List.mem_append_left _ (List.mem_filter.2 ⟨?_, rfl⟩)
      exact (c3.breaks.symm ▸ hp : _ ∈ s3.breaks)
    · intro e he
      exact g3.returns e he
    · intro cf' ha
      have := cond_sim (S := S) (x := x.inLoop) (st := { st with breaks := [] }) (op := false) (cf := cf') (ts := x.tries) (K := K) (F := s3.pc)
        hx.env hk.1 hs.1 (by rw [hg1]; exact l1) (by rw [hg1]; exact hJ) ha.pc
      rw [hg1, show x.inLoop.env = x.env from rfl, ha.env] at this
      exact this
    · intro cf' ha
      have := cond_sim (S := S) (x := x.inLoop) (st := comp x.inLoop b s1) (op := true) (cf := cf') (ts := x.tries) (K := K) (F := s1.pc)
        hx.env hk.1 hs.1 (by rw [hg3]; exact l3) (by rw [hg3]; exact hJ') ha.pc
      rw [hg3, show x.inLoop.env = x.env from rfl, ha.env] at this
      exact this
    · intro cf' ha
      have := ib x.inLoop (K.loop s3.pc st.pc) (loopWant w x.top) s1 hx.inLoop (hw.loop hx) (by rw [inLoop_last]; exact hs.2) hk.2
        (l2.loop _ _) hb2 n cf' ha.pc ha.hnd
      rw [show x.inLoop.env = x.env from rfl, ha.env] at this
      exact this

theorem sim_repeat {c : Cond} {b : Stmt} (ib : Sim S P b) : Sim S P (.repeat b c) := by
  intro x K w st hx hw hs hk hl hb n cf hpc hh
  simp only [comp] at hl hb ⊢
  simp only [exec]
  split
  · rename_i hf
    rw [if_pos hf] at hl hb
    have l1 := hl.of_grows' (grows_finishBC (d := x.d) _ _ _) hx.tries
    have hb1 := lkB_loop (top := x.top) hl hb
    refine loopR_sim (env := x.env) (top := x.top) (start := st.pc) (bottom := (comp x.inLoop b { st with breaks := [] }).pc)
      (pe := (comp x.inLoop b { st with breaks := [] }).pc)
      hx.env hx.fin (B' := (comp x.inLoop b { st with breaks := [] }).breaks) (R' := (comp x.inLoop b { st with breaks := [] }).returns)
      ?_ ?_ ?_ ?_ n (Nat.le_refl _) cf ⟨hpc, hh, rfl⟩
    · rintro ⟨k, e⟩ hp rfl
      exact List.mem_append_left _ (List.mem_filter.2 ⟨hp, rfl⟩)
    · intro e he
      exact he
    · intro cf' ha
      rw [falsy_eval hf hk.1]
      exact ⟨0, cf', .refl _, ha.pc, rfl, rfl, .refl _ _⟩
    · intro cf' ha
      have := ib x.inLoop (K.loop _ _) (loopWant w x.top) { st with breaks := [] } hx.inLoop (hw.loop hx) (by rw [inLoop_last]; exact hs.2) hk.2
        (l1.loop _ _) hb1 n cf' ha.pc ha.hnd
      rw [show x.inLoop.env = x.env from rfl, ha.env] at this
      exact this
  · rename_i hf
    rw [if_neg hf] at hl hb
    generalize hs2 : comp x.inLoop b { st with breaks := [] } = s2 at hl hb ⊢
    have g3 := (genCond_grows x.inLoop c true s2).grows x.d
    have c3 := genCond_grows x.inLoop c true s2
    rcases hg3 : genCond x.inLoop c true s2 with ⟨s3, J'⟩
    rw [hg3] at hl hb g3 c3
    simp only at hl hb g3 c3 ⊢
    have lf := hl.of_grows' (grows_finishBC (d := x.d) _ _ _) hx.tries
    have l3 := lf.of_grows' (grows_setAll (d := x.d) _ _ _).toGrows' hx.tries
    have l2 := l3.of_grows' g3.toGrows' hx.tries
    have hJ' : ∀ e ∈ J', P.tgt e = some st.pc := fun e he => lf.log (e, st.pc)
      (List.mem_append_right _ (List.mem_map.2 ⟨e, he, rfl⟩))
    have hb2 : LkB P (K.loop s3.pc s2.pc) (loopWant w x.top) s2 := by
      intro p hp
      exact lkB_loop hl hb p (by rw [← c3.breaks] at hp; exact hp)
    subst hs2
    refine loopR_sim (env := x.env) (top := x.top) (start := st.pc) (bottom := (comp x.inLoop b { st with breaks := [] }).pc) (pe := s3.pc)
      hx.env hx.fin (B' := (comp x.inLoop b { st with breaks := [] }).breaks) (R' := (comp x.inLoop b { st with breaks := [] }).returns)
      ?_ ?_ ?_ ?_ n (Nat.le_refl _) cf ⟨hpc, hh, rfl⟩
    · rintro ⟨k, e⟩ hp rfl
      refine List.mem_append_left _ (List.mem_filter.2 ⟨?_, rfl⟩)
      exact (c3.breaks.symm ▸ hp : _ ∈ s3.breaks)
    · intro e he
      exact g3.returns e he
    · intro cf' ha
      have := cond_sim (S := S) (x := x.inLoop) (st := comp x.inLoop b { st with breaks := [] }) (op := true) (cf := cf') (ts := x.tries) (K := K)
        (F := st.pc) hx.env hk.1 hs.1 (by rw [hg3]; exact l3) (by rw [hg3]; exact hJ') ha.pc
      rw [hg3, show x.inLoop.env = x.env from rfl, ha.env] at this
      exact this
    · intro cf' ha
      have := ib x.inLoop (K.loop _ _) (loopWant w x.top) { st with breaks := [] } hx.inLoop (hw.loop hx) (by rw [inLoop_last]; exact hs.2) hk.2
        (l2.loop _ _) hb2 n cf' ha.pc ha.hnd
      rw [show x.inLoop.env = x.env from rfl, ha.env] at this
      exact this

/-- NEXT.JUMP -/
theorem run_next {cf : Cfg σ V} {d j e F : Nat} {env : List Nat} (h : P.code[cf.pc]? = some (.next j env e)) (ht : P.tgt e = some F) :
    match S.next j (env.map cf.regs) cf.mem with
    | .ok true s => Arrive S P d cf 1 F s { cf with pc := F, mem := s }
    | .ok false s => Arrive S P d cf 1 (cf.pc + 1) s { cf with pc := cf.pc + 1, mem := s }
    | .exn v s => Raises S P d cf v s 0 cf := by
  split
  · rename_i s hv
    exact ⟨Reach.one (by simp [step, h, hv, goto, ht]), rfl, rfl, rfl, fun _ _ => rfl⟩
  · rename_i s hv
    exact ⟨Reach.one (by simp [step, h, hv]), rfl, rfl, rfl, fun _ _ => rfl⟩
  · rename_i v s hv
    exact ⟨.refl _, by simp [step, h, hv], rfl, .refl _ _⟩

theorem sim_forIn {i j : Nat} {b : Stmt} (ib : Sim S P b) : Sim S P (.forIn i j b) := by
  intro x K w st hx hw hs hk hl hb n cf hpc hh
  simp only [comp] at hl hb ⊢
  simp only [exec]
  generalize hs1 : ({ st with breaks := [] } : St).emit (.eval i x.d x.env) = s1 at hl hb ⊢
  have g2 := comp_grows b x.inLoop (s1.emitJ .jmp)
  generalize hs2 : comp x.inLoop b (s1.emitJ .jmp) = s2 at hl hb g2 ⊢
  have lf := hl.of_grows' (grows_finishBC (d := x.d) _ _ _) hx.tries
  have l3 := lf.of_grows' ((grows_set (d := x.d) _ _ _).trans (grows_set (d := x.d) _ _ _)).toGrows' hx.tries
  have l2 := l3.of_grows' (grows_emitJ (d := x.d) _ _).toGrows' hx.tries
  have l1' := l2.of_grows' g2.toGrows' hx.tries
  have l1 := l1'.of_grows' (grows_emitJ (d := x.d) _ _).toGrows' hx.tries
  have t1 : P.tgt s1.n = some s2.pc := lf.log (s1.n, s2.pc) (List.mem_append_right _ (List.mem_singleton_self _))
  have t2 : P.tgt s2.n = some (s1.emitJ .jmp).pc := lf.log (s2.n, _)
    (List.mem_append_left _ (List.mem_append_right _ (List.mem_singleton_self _)))
  have hpe : ((s2.emitJ (.next j x.env)).set s2.n (s1.emitJ .jmp).pc |>.set s1.n s2.pc).pc = s2.pc + 1 := by simp [St.set, St.pc, St.emitJ]
  have hb2 : LkB P (K.loop (s2.pc + 1) s2.pc) (loopWant w x.top) s2 := by
    have := lkB_loop (top := x.top) hl hb
    rw [hpe] at this
    exact this
  have hr := run_eval (S := S) (P := P) (cf := cf) (i := i) (r := x.d) (env := x.env) (by subst hs1; exact l1.at hpc)
  rcases hv : S.expr i (x.env.map cf.regs) cf.mem with ⟨v, s⟩ | ⟨v, s⟩ <;> rw [hv] at hr <;> simp only at hr ⊢
  · have hp1 : cf.pc + 1 = s1.pc := by subst hs1; simp [hpc, St.pc, St.emit]
    rw [hp1] at hr
    have h1 := hr.trans (run_jmp (S := S) (l1'.atJ (i := .jmp) rfl) t1 x.d)
    have hE : ∀ r old, ((((s2.emitJ (.next j x.env)).set s2.n (s1.emitJ .jmp).pc).set s1.n s2.pc).finishBC r old).pc = s2.pc + 1 := fun _ _ => hpe
    rw [hE]
    refine Post.after h1 hx.fin (g := n) (g' := n) (by omega) ?_
    refine (loopW_sim (env := x.env) (top := x.top) (start := s2.pc) (pb := (s1.emitJ .jmp).pc) (bottom := s2.pc) (pe := s2.pc + 1)
      hx.env hx.fin (B' := s2.breaks) (R' := s2.returns) ?_ ?_ ?_ ?_ ?_ n (Nat.le_refl _)).1 _ ⟨rfl, hh, h1.regs.map hx.env⟩
    · rintro ⟨k, e⟩ hp rfl
      exact List.mem_append_left _ (List.mem_filter.2 ⟨hp, rfl⟩)
    · intro e he
      exact he
    · intro cf' ha
      have hn := run_next (S := S) (P := P) (cf := cf') (d := x.d) (l3.atJ ha.pc) t2
      rw [ha.env] at hn
      rcases hv : S.next j (x.env.map cf.regs) cf'.mem with ⟨_ | _, s⟩ | ⟨v, s⟩ <;> rw [hv] at hn <;> simp only [ha.pc] at hn
      · exact ⟨_, _, hn⟩
      · exact ⟨_, _, hn⟩
      · exact ⟨_, _, hn⟩
    · intro cf' ha
      have hn := run_next (S := S) (P := P) (cf := cf') (d := x.d) (l3.atJ ha.pc) t2
      rw [ha.env] at hn
      rcases hv : S.next j (x.env.map cf.regs) cf'.mem with ⟨_ | _, s⟩ | ⟨v, s⟩ <;> rw [hv] at hn <;> simp only [ha.pc] at hn
      · exact ⟨_, _, hn⟩
      · exact ⟨_, _, hn⟩
      · exact ⟨_, _, hn⟩
    · intro cf' ha
      subst hs2
      have := ib x.inLoop (K.loop _ _) (loopWant w x.top) (s1.emitJ .jmp) hx.inLoop (hw.loop hx) (by rw [inLoop_last]; exact hs) hk
        (l2.loop _ _) hb2 n cf' ha.pc ha.hnd
      rw [show x.inLoop.env = x.env from rfl, ha.env] at this
      exact this
  · exact .thr (hr _)

theorem sim_throw (i : Nat) : Sim S P (.throw i) := by
  intro x K w st hx hw hs hk hl hb n cf hpc hh
  simp only [comp] at hl
  have l1 := hl.of_grows' (grows_emit (d := x.d) _ _).toGrows' hx.tries
  have hr := run_eval (S := S) (l1.at hpc)
  simp only [exec]
  rcases hv : S.expr i (x.env.map cf.regs) cf.mem with ⟨v, s⟩ | ⟨v, s⟩ <;> rw [hv] at hr <;> simp only at hr ⊢
  · have := run_throw (S := S) (P := P) (cf := ⟨cf.pc + 1, upd cf.regs x.d v, cf.hnd, s⟩) (hl.at (by simp [hpc, St.pc, St.emit])) x.d
    simp only [upd, if_true] at this
    exact .thr (this.after hr)
  · exact .thr (hr _)

theorem sim_assert (c : Cond) (k : Nat) : Sim S P (.assert c k) := by
  intro x K w st hx hw hs hk hl hb n cf hpc hh
  simp only [comp] at hl hb ⊢
  simp only [exec]
  generalize hs1 : (genCond x c true st).1 = s1 at hl hb ⊢
  have l3 := hl.of_grows' (grows_setAll (d := x.d) _ _ _).toGrows' hx.tries
  have l2 := l3.of_grows' (grows_emit (d := x.d) _ _).toGrows' hx.tries
  have l1 := l2.of_grows' (grows_emit (d := x.d) _ _).toGrows' hx.tries
  have hj := cond_sim (S := S) hx.env hk hs (hs1 ▸ l1) (F := ((s1.emit (.eval k x.d x.env)).emit (.throw x.d)).pc)
    (fun e he => hl.log (e, _) (List.mem_append_right _ (List.mem_map.2 ⟨e, he, rfl⟩))) hpc
  rw [hs1] at hj
  rcases hr : evalC S (x.env.map cf.regs) c cf.mem with ⟨_ | _, s⟩ | ⟨v, s⟩ <;> rw [hr] at hj <;> simp only
  · obtain ⟨j, c', h⟩ := hj
    have hr := run_eval (S := S) (l2.at h.pc)
    rw [h.mem, h.regs.map hx.env] at hr
    rcases hv : S.expr k (x.env.map cf.regs) s with ⟨v, s⟩ | ⟨v, s⟩ <;> rw [hv] at hr <;> simp only at hr ⊢
    · have := run_throw (S := S) (P := P) (cf := ⟨c'.pc + 1, upd c'.regs x.d v, c'.hnd, s⟩) (l3.at (by simp [h.pc, St.pc, St.emit])) x.d
      simp only [upd, if_true] at this
      exact .thr (this.after (h.trans hr))
    · exact .thr ((hr _).after h)
  · obtain ⟨j, c', h⟩ := hj
    exact .normal h
  · obtain ⟨j, c', h⟩ := hj
    exact .thr h

theorem sim_jump (kd : Kind) : Sim S P (.jump kd) := by
  intro x K w st hx hw hs hk hl hb n cf hpc hh
  simp only [comp, genJump] at hl hb ⊢
  simp only [exec]
  simp only [Safe] at hs
  have hno : w kd ≠ .no := by intro h; rw [h] at hs; exact hs
  cases hlast : x.last with
  | none =>
    simp only [hlast] at hl hb ⊢
    have ht : P.tgt st.n = some (K.pc kd) := hb (kd, st.n) (List.mem_cons_self ..) hno
    have l1 : Lk P K x.tries (st.emitJ .jmp) := ⟨hl.code, hl.log, hl.ret, hl.kids⟩
    refine ⟨⟨st.n, List.mem_cons_self ..⟩, ?_⟩
    have := run_jmp (S := S) (l1.atJ hpc) ht x.d
    refine ⟨0, _, this.lands, ?_⟩
    rcases hw' : w kd with _ | _ | h <;> simp only [hw'] at hs ⊢
    simp only [landed, hlast] at hs
    rw [← hs]
    exact hh
  | some r =>
    simp only [hlast] at hl hb ⊢
    have ht : P.tgt (st.restoreCatch (some r)).n = some (K.pc kd) := hb (kd, (st.restoreCatch (some r)).n) (List.mem_cons_self ..) hno
    have l1 : Lk P K x.tries ((st.restoreCatch (some r)).emitJ .jmp) := ⟨hl.code, hl.log, hl.ret, hl.kids⟩
    have l0 := l1.of_grows' (grows_emitJ (d := x.d) _ _).toGrows' hx.tries
    refine ⟨⟨_, List.mem_cons_self ..⟩, ?_⟩
    have h1 := run_restore (S := S) l0 hpc (by rintro _ ⟨⟩; exact hx.last r hlast)
    have := run_jmp (S := S) (cf := { cf with pc := (st.restoreCatch (some r)).pc, hnd := hndOf K (some r) }) (l1.atJ rfl) ht x.d
    refine ⟨1, _, ⟨.cons h1 this.reach, this.pc, this.mem, fun _ _ => rfl⟩, ?_⟩
    rcases hw' : w kd with _ | _ | h <;> simp only [hw'] at hs ⊢
    simp only [landed, hlast] at hs
    rw [← hs]

/-- `gen_return`: the value is in register `reg`. -/
theorem return_sim {x : Ctx} {K : Tgts} {w : Kind → Want} {st : St} {reg d n : Nat} {cf : Cfg σ V}
    (hl : Lk P K x.tries (genReturn x reg st)) (hpc : cf.pc = st.pc) (E : Nat) (B : List (Kind × Nat)) :
    Post S P K w d x.fin n cf E B (genReturn x reg st).returns (some (.ret (cf.regs reg), cf.mem)) := by
  unfold genReturn Ctx.fin at *
  rcases hf : x.tries.find? (·.2) with _ | ⟨r, b⟩ <;> simp only [hf, Option.map] at hl ⊢
  · exact ⟨0, cf, .refl _, by simp [step, hl.at hpc]⟩
  · refine ⟨⟨_, List.mem_cons_self ..⟩, ?_⟩
    have ht := hl.ret _ (List.mem_cons_self ..)
    by_cases hr : reg ≠ r
    · simp only [if_pos hr] at hl ht ⊢
      have h1 : P.code[cf.pc]? = some (.move r reg) := getElem?_of_prefix hl.code (by simp [hpc, St.pc, St.emit, St.emitJ])
      have h2 : P.code[cf.pc + 1]? = some (.jmp st.n) := getElem?_of_prefix hl.code (by simp [hpc, St.pc, St.emit, St.emitJ])
      have h3 : step S P cf = .run { cf with pc := cf.pc + 1, regs := upd cf.regs r (cf.regs reg) } := by simp [step, h1]
      have h4 := run_jmp (S := S) (cf := { cf with pc := cf.pc + 1, regs := upd cf.regs r (cf.regs reg) }) h2 ht r
      exact ⟨_, _, ⟨.cons h3 h4.reach, rfl, rfl, agree_upd (Nat.le_refl _)⟩, by simp [upd]⟩
    · simp only [if_neg hr] at hl ht ⊢
      have h2 : P.code[cf.pc]? = some (.jmp st.n) := getElem?_of_prefix hl.code (by simp [hpc, St.pc, St.emitJ])
      have h4 := run_jmp (S := S) h2 ht r
      refine ⟨_, _, h4.lands, ?_⟩
      rw [Decidable.not_not.1 hr]

theorem XOk.fin_top {x : Ctx} (h : XOk x) : ∀ r, x.fin = some r → ∃ t, x.top = some t ∧ r ≤ t := by
  intro r hr
  simp only [Ctx.fin, Option.map_eq_some_iff] at hr
  obtain ⟨t, h1, rfl⟩ := hr
  have hm := List.mem_of_find?_eq_some h1
  unfold Ctx.top
  rcases hts : x.tries with _ | ⟨a, l⟩
  · rw [hts] at hm; cases hm
  · refine ⟨a.1, rfl, ?_⟩
    have ho := h.order
    rw [hts] at hm ho
    rcases List.mem_cons.1 hm with rfl | hm
    · exact Nat.le_refl _
    · exact Nat.le_of_lt ((List.pairwise_cons.1 ho).1 t hm)

theorem ret_sim {x : Ctx} {K : Tgts} {w : Kind → Want} {st : St} {i reg d n : Nat} {cf : Cfg σ V} (hx : XOk x)
    (hl : Lk P K x.tries (genReturn x reg (st.emit (.eval i reg x.env)))) (hpc : cf.pc = st.pc) (E : Nat) (B : List (Kind × Nat))
    (hreg : ∀ r, x.fin = some r → r ≤ reg) :
    Post S P K w d x.fin n cf E B (genReturn x reg (st.emit (.eval i reg x.env))).returns (match S.expr i (x.env.map cf.regs) cf.mem with
      | .ok v s => some (.ret v, s)
      | .exn v s => some (.thr (S.wrap v), s)) := by
  have l1 := hl.of_grows' (grows_genReturn (d := x.d) _ _ _).toGrows' hx.tries
  have hr := run_eval (S := S) (l1.at hpc)
  rcases hv : S.expr i (x.env.map cf.regs) cf.mem with ⟨v, s⟩ | ⟨v, s⟩ <;> rw [hv] at hr <;> simp only at hr ⊢
  · have h2 := return_sim (S := S) (d := reg) (n := n) (w := w) (cf := ⟨cf.pc + 1, upd cf.regs reg v, cf.hnd, s⟩) hl
      (by simp [hpc, St.pc, St.emit]) E B
    simp only at h2
    rw [show upd cf.regs reg v reg = v by simp [upd]] at h2
    have h3 := h2.after (g' := n) hr hreg (by omega)
    cases hfin : x.fin <;> rw [hfin] at h3 <;> exact h3
  · exact .thr (hr _)

theorem sim_ret (i : Nat) : Sim S P (.ret i) := by
  intro x K w st hx hw hs hk hl hb n cf hpc hh
  simp only [comp] at hl hb ⊢
  simp only [exec]
  cases htop : x.top with
  | none =>
    simp only [htop] at hl hb ⊢
    exact ret_sim hx hl hpc _ _ hx.fin
  | some t =>
    simp only [htop] at hl hb ⊢
    refine ret_sim hx hl hpc _ _ fun r hr => ?_
    obtain ⟨t', h1, h2⟩ := hx.fin_top r hr
    rw [htop] at h1
    cases h1
    exact h2

/-! ### `try` -/

/-- The handler of the `try` with register `r`. -/
def Tgts.try (K : Tgts) (r t : Nat) : Tgts := { K with hnd := fun q => if q = r then t else K.hnd q }

theorem hndOf_try {K : Tgts} {r t : Nat} {h : Option Nat} (hr : ∀ q, h = some q → q < r) : hndOf (K.try r t) h = hndOf K h := by
  cases h with
  | none => rfl
  | some q => simp [hndOf, Tgts.try, Nat.ne_of_lt (hr q rfl)]

theorem XOk.body {x : Ctx} (hx : XOk x) (fl : Bool) : XOk { x with tries := (x.d, fl) :: x.tries, d := x.d + 1 } where
  env := fun q hq => Nat.lt_succ_of_lt (hx.env q hq)
  tries := fun t ht => by
    rcases List.mem_cons.1 ht with rfl | ht
    · exact Nat.lt_succ_self _
    · exact Nat.lt_succ_of_lt (hx.tries t ht)
  order := List.pairwise_cons.2 ⟨fun t ht => hx.tries t ht, hx.order⟩
  last := hx.last.body _ _ _

theorem XOk.handler {x : Ctx} (hx : XOk x) : XOk { x with d := x.d + 1, env := x.d :: x.env } where
  env := fun q hq => by
    rcases List.mem_cons.1 hq with rfl | hq
    · exact Nat.lt_succ_self _
    · exact Nat.lt_succ_of_lt (hx.env q hq)
  tries := fun t ht => Nat.lt_succ_of_lt (hx.tries t ht)
  order := hx.order
  last := hx.last

theorem XOk.deferred {x : Ctx} (hx : XOk x) : XOk { x with d := x.d + 1 } where
  env := fun q hq => Nat.lt_succ_of_lt (hx.env q hq)
  tries := fun t ht => Nat.lt_succ_of_lt (hx.tries t ht)
  order := hx.order
  last := hx.last

theorem XOk.top {x : Ctx} (hx : XOk x) : ∀ r, x.top = some r → r < x.d := fun r hr => by
  obtain ⟨t, h1, h2⟩ := List.mem_map.1 (top_mem x r hr)
  exact h2 ▸ hx.tries t h1

theorem WOk.succ {w : Kind → Want} {d : Nat} (h : WOk w d) : WOk w (d + 1) := fun k r hk => Nat.lt_succ_of_lt (h k r hk)

theorem kids_body {K : Tgts} {x : Ctx} {st : St} {e : Nat} {fl : Bool} (hl : Lk P K x.tries ((st.updateKids x.d).set e st.pc)) :
    ∀ p ∈ st.kids, p.1 ∈ ((x.d, fl) :: x.tries).map (·.1) → P.tgt p.2 = some ((K.try x.d st.pc).hnd p.1) := by
  intro p hp hm
  simp only [Tgts.try]
  split
  · rename_i h
    exact hl.log (p.2, st.pc) (List.mem_append_left _ (List.mem_append_right _ (List.mem_map.2 ⟨p, List.mem_filter.2 ⟨hp, by simp [h]⟩, rfl⟩)))
  · rename_i h
    refine hl.kids p (List.mem_filter.2 ⟨hp, by simp [h]⟩) ?_
    rcases List.mem_cons.1 hm with hm | hm
    · exact absurd hm h
    · exact hm

/-- Steps before which keep the handler of the `try` around. -/
theorem Post.lift {K : Tgts} {w : Kind → Want} {d : Nat} {fin : Option Nat} {n j p E : Nat} {s : σ} {cf cf' : Cfg σ V} {B B' : List (Kind × Nat)} {R R' : List Nat}
    {r : Option (Out V × σ)} (h : Arrive S P d cf j p s cf') (hf : ∀ r, fin = some r → r ≤ d) (hp : Post S P K w (d + 1) fin n cf' E B' R' r)
    (hB : ∀ p ∈ B', p ∈ B) (hR : ∀ p ∈ R', p ∈ R) : Post S P K w d fin n cf E B R r :=
  (hp.mono (Nat.le_succ d) (Nat.le_refl n) hB hR).after h hf (by omega)

theorem sim_tryCatch {b h : Stmt} (ib : Sim S P b) (ih : Sim S P h) : Sim S P (.tryCatch b h) := by
  intro x K w st hx hw hs hk hl hb n cf hpc hh
  simp only [comp] at hl hb ⊢
  simp only [exec]
  generalize hs0 : ({ st with breaks := [] } : St).emitJ (.catch x.d) = s0 at hl hb ⊢
  have g1 := comp_grows b { x with tries := (x.d, false) :: x.tries, d := x.d + 1 } s0
  generalize hs1 : comp { x with tries := (x.d, false) :: x.tries, d := x.d + 1 } b s0 = s1 at hl hb g1 ⊢
  generalize hs4 : (((s1.restoreCatch x.top).emitJ .jmp).updateKids x.d).set st.n ((s1.restoreCatch x.top).emitJ .jmp).pc = s4 at hl hb ⊢
  have g6 := comp_grows h { x with d := x.d + 1, env := x.d :: x.env } (s4.restoreCatch x.top)
  generalize hs6 : comp { x with d := x.d + 1, env := x.d :: x.env } h (s4.restoreCatch x.top) = s6 at hl hb g6 ⊢
  have l7 : Lk P K x.tries (s6.set (s1.restoreCatch x.top).n s6.pc) := ⟨hl.code, hl.log, hl.ret, hl.kids⟩
  have b7 : LkB P K w (s6.set (s1.restoreCatch x.top).n s6.pc) := fun p hp => hb p (List.mem_append_left _ hp)
  have l6 := l7.of_grows' (grows_set (d := x.d) _ _ _).toGrows' hx.tries
  have b6 := b7.of_grows (grows_set (d := x.d) _ _ _)
  have l5 := l6.of_grows' g6.toGrows' (fun t ht => Nat.lt_succ_of_lt (hx.tries t ht))
  have b5 := b6.of_grows g6
  have l4 := l5.of_grows' (grows_restoreCatch (d := x.d) _ _).toGrows' hx.tries
  have b4 := b5.of_grows (grows_restoreCatch (d := x.d) _ _)
  have gj : Grows x.d ((s1.restoreCatch x.top).emitJ .jmp) s4 := hs4 ▸ (grows_updateKids _ _ (Nat.le_refl _)).trans (grows_set _ _ _)
  have l3 := l4.of_grows' gj.toGrows' hx.tries
  have b3 := b4.of_grows gj
  have l2 := l3.of_grows' (grows_emitJ (d := x.d) _ _).toGrows' hx.tries
  have b2 := b3.of_grows (grows_emitJ (d := x.d) _ _)
  have b1 := b2.of_grows (grows_restoreCatch (d := x.d) _ _)
  have p4 : s4.pc = ((s1.restoreCatch x.top).emitJ .jmp).pc := by subst hs4; rfl
  have gg : Grows x.d s1 s6 := ((grows_restoreCatch _ _).trans ((grows_emitJ _ _).trans gj)).trans ((grows_restoreCatch _ _).trans (g6.mono (Nat.le_succ _)))
  have te : P.tgt st.n = some s4.pc := l4.log (st.n, s4.pc) (by rw [p4, ← hs4]; exact List.mem_append_right _ (List.mem_singleton_self _))
  have tj : P.tgt (s1.restoreCatch x.top).n = some s6.pc := l7.log (_, s6.pc) (List.mem_append_right _ (List.mem_singleton_self _))
  -- the block
  have lb : Lk P (K.try x.d s4.pc) ((x.d, false) :: x.tries) ((s1.restoreCatch x.top).emitJ .jmp) :=
    ⟨l3.code, l3.log, l3.ret, by rw [p4]; exact kids_body (hs4 ▸ l4)⟩
  have lb1 := lb.of_grows' (d := x.d + 1) ((grows_restoreCatch s1 x.top).trans (grows_emitJ _ _)).toGrows' (hx.body false).tries
  have hcatch : step S P cf = .run { cf with pc := s0.pc, hnd := some (s4.pc, x.d) } := by
    have h0 : P.code[cf.pc]? = some (.catch x.d st.n) := by
      have := lb1.of_grows' g1.toGrows' (hx.body false).tries
      subst hs0
      exact this.atJ hpc
    unfold step
    rw [h0]
    subst hs0
    simp [te, hpc, St.pc, St.emitJ]
  subst hs1
  have hB := ib _ (K.try x.d s4.pc) w s0 (hx.body false) hw.succ hs.1 hk.1 lb1 (fun p hp => b1 p hp) n { cf with pc := s0.pc, hnd := some (s4.pc, x.d) } rfl
    (by simp [hndOf, Ctx.top, Tgts.try])
  rw [show ({ x with tries := (x.d, false) :: x.tries, d := x.d + 1 } : Ctx).fin = x.fin from rfl] at hB
  simp only at hB
  generalize comp { x with tries := (x.d, false) :: x.tries, d := x.d + 1 } b s0 = s1 at *
  rcases hr : exec S n b (x.env.map cf.regs) cf.mem with _ | ⟨_ | kd | v | v, s⟩ <;> rw [hr] at hB <;> simp only
  · obtain ⟨k, c', h1, h2⟩ := hB
    exact ⟨k + 1, c', .cons hcatch h1, by omega⟩
  · obtain ⟨k, c', h1⟩ := hB
    have h2 := run_restore (S := S) l2 h1.pc (top_mem x)
    have h3 := run_jmp (S := S) (cf := { c' with pc := (s1.restoreCatch x.top).pc, hnd := hndOf K x.top }) (l3.atJ rfl) tj x.d
    exact .normal ⟨((Reach.cons hcatch h1.reach).snoc h2).trans h3.reach, h3.pc, h1.mem, hh.symm, fun q hq => h1.regs q (Nat.lt_succ_of_lt hq)⟩
  · obtain ⟨⟨e, he⟩, k, c', h1, h2⟩ := hB
    refine ⟨⟨e, List.mem_append_left _ (gg.breaks _ he)⟩, k + 1, c', ⟨.cons hcatch h1.reach, h1.pc, h1.mem, fun q hq => h1.regs q (Nat.lt_succ_of_lt hq)⟩, ?_⟩
    rcases hw' : w kd with _ | _ | t <;> simp only [hw'] at h2 ⊢
    rw [h2, hndOf_try]
    rintro q rfl
    exact hw kd q hw'
  · cases hfin : x.fin with
    | none =>
      rw [hfin] at hB
      obtain ⟨k, c', h1, h2⟩ := hB
      exact ⟨k + 1, c', .cons hcatch h1, h2⟩
    | some r =>
      rw [hfin] at hB
      obtain ⟨⟨e, he⟩, k, c', h1, h2⟩ := hB
      exact ⟨⟨e, gg.returns _ he⟩, k + 1, c', ⟨.cons hcatch h1.reach, h1.pc, h1.mem, h1.regs⟩, h2⟩
  · obtain ⟨u, k, c', hu, h1⟩ := hB
    have h2 : step S P c' = .run ⟨s4.pc, upd c'.regs x.d v, none, s⟩ := by
      rw [h1.step, raise, h1.hnd]
      simp only [hu]
    have h3 := run_restore (S := S) (cf := ⟨s4.pc, upd c'.regs x.d v, none, s⟩) l5 rfl (top_mem x)
    have ha : Arrive S P x.d cf (k + 1 + 1 + 1) (s4.restoreCatch x.top).pc s ⟨(s4.restoreCatch x.top).pc, upd c'.regs x.d v, hndOf K x.top, s⟩ :=
      ⟨((Reach.cons hcatch h1.reach).snoc h2).snoc h3, rfl, rfl, hh.symm, fun q hq => by
        simp [upd, Nat.ne_of_lt hq, h1.regs q (Nat.lt_succ_of_lt hq)]⟩
    subst hs6
    have hH := ih _ K w (s4.restoreCatch x.top) hx.handler hw.succ hs.2 hk.2 l6 b6 n
      ⟨(s4.restoreCatch x.top).pc, upd c'.regs x.d v, hndOf K x.top, s⟩ rfl rfl
    simp only [List.map_cons, ha.regs.map hx.env] at hH
    rw [show upd c'.regs x.d v x.d = v by simp [upd]] at hH
    exact hH.lift ha hx.fin (fun p hp => List.mem_append_left _ hp) (fun p hp => hp)

/-- A copy of the deferred code, reached in `k` steps from the start of the statement. -/
theorem copy_start {f : Stmt} (iF : Sim S P f) {x : Ctx} {K : Tgts} {w : Kind → Want} (hx : XOk x) (hw : WOk w x.d) (hs : Safe x.top x.last (x.d + 1) w f)
    (hk : KnownS S f) {a : St} (hl : Lk P K x.tries (comp { x with d := x.d + 1 } f (a.restoreCatch x.top)))
    (hb : LkB P K w (comp { x with d := x.d + 1 } f (a.restoreCatch x.top))) {n : Nat} {cf : Cfg σ V} (hh : cf.hnd = hndOf K x.top)
    {k : Nat} {s : σ} {c' : Cfg σ V} (h : Lands S P x.d cf k a.pc s c') :
    ∃ c2, Arrive S P x.d cf (k + 1) (a.restoreCatch x.top).pc s c2 ∧ c2.regs = c'.regs ∧
      Post S P K w (x.d + 1) x.fin n c2 (comp { x with d := x.d + 1 } f (a.restoreCatch x.top)).pc
        (comp { x with d := x.d + 1 } f (a.restoreCatch x.top)).breaks (comp { x with d := x.d + 1 } f (a.restoreCatch x.top)).returns
        (exec S n f (x.env.map cf.regs) s) := by
  obtain rfl := h.mem
  have l1 := hl.of_grows' (comp_grows f { x with d := x.d + 1 } _).toGrows' hx.deferred.tries
  have h1 := run_restore (S := S) l1 h.pc (top_mem x)
  refine ⟨_, ⟨h.reach.snoc h1, rfl, h.mem, hh.symm, h.regs⟩, rfl, ?_⟩
  have := iF { x with d := x.d + 1 } K w (a.restoreCatch x.top) hx.deferred hw.succ hs hk hl hb n
    { c' with pc := (a.restoreCatch x.top).pc, hnd := hndOf K x.top } rfl rfl
  simp only [h.regs.map hx.env] at this
  exact this

/-- The copy for a jump. -/
theorem copy_jump {f : Stmt} (iF : Sim S P f) {x : Ctx} {K : Tgts} {w : Kind → Want} (hx : XOk x) (hw : WOk w x.d) (hs : Safe x.top x.last (x.d + 1) w f)
    (hk : KnownS S f) {a : St} {tryB : List (Kind × Nat)} {kd : Kind} {e : Nat} (he : (kd, e) ∈ tryB)
    (hl : Lk P K x.tries (deferCopy x.top (comp { x with d := x.d + 1 } f) tryB kd a))
    (hb : LkB P K w (deferCopy x.top (comp { x with d := x.d + 1 } f) tryB kd a)) {n : Nat} {cf : Cfg σ V} (hh : cf.hnd = hndOf K x.top)
    (hwant : w kd = .any ∨ w kd = .at x.top) {k : Nat} {s : σ} {c' : Cfg σ V} (h : Lands S P x.d cf k a.pc s c') (E : Nat) :
    Post S P K w x.d x.fin n cf E (deferCopy x.top (comp { x with d := x.d + 1 } f) tryB kd a).breaks
      (deferCopy x.top (comp { x with d := x.d + 1 } f) tryB kd a).returns
      (match exec S n f (x.env.map cf.regs) s with
       | some (.normal, s) => some (.jump kd, s)
       | r => r) := by
  have hne : (tryB.filter fun x => x.1 == kd).map (·.2) ≠ [] := by
    intro h
    have : e ∈ (tryB.filter fun x => x.1 == kd).map (·.2) := List.mem_map.2 ⟨(kd, e), List.mem_filter.2 ⟨he, by simp⟩, rfl⟩
    rw [h] at this
    cases this
  simp only [deferCopy, if_neg hne] at hl hb ⊢
  generalize ha : a.setAll ((tryB.filter fun x => x.1 == kd).map (·.2)) a.pc = a' at hl hb ⊢
  have lg : Lk P K x.tries ((comp { x with d := x.d + 1 } f (a'.restoreCatch x.top)).emitJ .jmp) := ⟨hl.code, hl.log, hl.ret, hl.kids⟩
  have lf := lg.of_grows' (grows_emitJ (d := x.d) _ _).toGrows' hx.tries
  have bf : LkB P K w (comp { x with d := x.d + 1 } f (a'.restoreCatch x.top)) := fun p hp => hb p (List.mem_cons_of_mem _ hp)
  obtain ⟨c2, h1, -, h2⟩ := copy_start iF hx hw hs hk lf bf (n := n) hh (c' := c') (k := k) (s := s) (by subst ha; exact h)
  have hno : w kd ≠ .no := by rcases hwant with h | h <;> rw [h] <;> simp
  have ht := hb (kd, (comp { x with d := x.d + 1 } f (a'.restoreCatch x.top)).n) (List.mem_cons_self ..) hno
  generalize comp { x with d := x.d + 1 } f (a'.restoreCatch x.top) = g at *
  refine Post.lift (B' := (kd, g.n) :: g.breaks) (R' := g.returns) h1 hx.fin ?_ (fun p hp => hp) (fun p hp => hp)
  refine h2.seq (fun p hp => List.mem_cons_of_mem _ hp) (fun p hp => hp) ?_ ?_
  · intro hne
    split
    · rename_i s hr; exact absurd hr (hne s)
    · rfl
  · intro s' hr j c3 h3
    rw [hr]
    have h4 := run_jmp (S := S) (lg.atJ h3.pc) ht (x.d + 1)
    refine ⟨⟨_, List.mem_cons_self ..⟩, j, _, (h3.mem ▸ h3.trans h4).lands, ?_⟩
    rcases hwant with h | h <;> rw [h]
    · trivial
    · exact (h3.hnd.trans h1.hnd).trans hh

theorem deferCopy_log {top : Option Nat} {f : St → St} (hf : ∀ st, Grows 0 st (f st)) {tryB : List (Kind × Nat)} {k : Kind} {e : Nat}
    (he : (k, e) ∈ tryB) (st : St) : (e, st.pc) ∈ (deferCopy top f tryB k st).log := by
  have hm : e ∈ (tryB.filter fun x => x.1 == k).map (·.2) := List.mem_map.2 ⟨(k, e), List.mem_filter.2 ⟨he, by simp⟩, rfl⟩
  simp only [deferCopy]
  split
  · rename_i h; rw [h] at hm; cases hm
  · refine (hf _).log _ ((grows_restoreCatch (d := 0) _ _).log _ ?_)
    exact List.mem_append_right _ (List.mem_map.2 ⟨e, hm, rfl⟩)

theorem deferReturn_log {x : Ctx} {r : Nat} {f : St → St} (hf : ∀ st, Grows 0 st (f st)) {tryR : List Nat} {e : Nat} (he : e ∈ tryR) (st : St) :
    (e, st.pc) ∈ (deferReturn x r f tryR st).log := by
  simp only [deferReturn]
  split
  · rename_i h; rw [h] at he; cases he
  · refine (grows_genReturn (d := 0) _ _ _).log _ ((hf _).log _ ((grows_restoreCatch (d := 0) _ _).log _ ?_))
    exact List.mem_append_right _ (List.mem_map.2 ⟨e, he, rfl⟩)

/-- JUMP.COND, JUMP.NOT.COND -/
theorem run_jcond {cf : Cfg σ V} {d r e t : Nat} {o : Bool} (h : P.code[cf.pc]? = some (.jcond o r e)) (ht : P.tgt e = some t) :
    if S.truthy (cf.regs r) = o then Arrive S P d cf 1 t cf.mem { cf with pc := t }
    else Arrive S P d cf 1 (cf.pc + 1) cf.mem { cf with pc := cf.pc + 1 } := by
  split
  · rename_i hv
    exact ⟨Reach.one (by simp [step, h, hv, goto, ht]), rfl, rfl, rfl, fun _ _ => rfl⟩
  · rename_i hv
    exact ⟨Reach.one (by simp [step, h, hv]), rfl, rfl, rfl, fun _ _ => rfl⟩

theorem sim_tryDefer (hS : S.Lawful) {b f : Stmt} (ib : Sim S P b) (iF : Sim S P f) : Sim S P (.tryDefer b f) := by
  intro x K w st hx hw hs hk hl hb n cf hpc hh
  simp only [comp] at hl hb ⊢
  simp only [exec]
  have hF : ∀ st, Grows x.d st (comp { x with d := x.d + 1 } f st) := fun st => (comp_grows f _ st).mono (Nat.le_succ _)
  have hF0 : ∀ st, Grows 0 st (comp { x with d := x.d + 1 } f st) := fun st => (hF st).mono (Nat.zero_le _)
  generalize hs0 : ({ st with breaks := [], returns := [] } : St).emit (.void x.d) = s0 at hl hb ⊢
  have g2 := comp_grows b { x with tries := (x.d, true) :: x.tries, d := x.d + 1 } (s0.emitJ (.catch x.d))
  generalize hs2 : comp { x with tries := (x.d, true) :: x.tries, d := x.d + 1 } b (s0.emitJ (.catch x.d)) = s2 at hl hb g2 ⊢
  generalize hs4 : (({ s2 with breaks := st.breaks, returns := st.returns } : St).updateKids x.d).set s0.n
    ({ s2 with breaks := st.breaks, returns := st.returns } : St).pc = s4 at hl hb ⊢
  have p4 : s4.pc = s2.pc := by subst hs4; rfl
  generalize hs6 : comp { x with d := x.d + 1 } f (s4.restoreCatch x.top) = s6 at hl hb ⊢
  generalize hs7 : (s6.emitJ (.jcond false x.d)).emit (.throw x.d) = s7 at hl hb ⊢
  generalize hs8 : deferCopies x.top (comp { x with d := x.d + 1 } f) s2.breaks s7 = s8 at hl hb ⊢
  generalize hs9 : deferReturn x x.d (comp { x with d := x.d + 1 } f) s2.returns s8 = s9 at hl hb ⊢
  have l9 := hl.of_grows' (grows_set (d := x.d) _ _ _).toGrows' hx.tries
  have b9 := hb.of_grows (grows_set (d := x.d) _ _ _)
  have g9 : Grows x.d s8 s9 := hs9 ▸ grows_deferReturn _ _ _ _ _ hF
  have l8 := l9.of_grows' g9.toGrows' hx.tries
  have b8 := b9.of_grows g9
  unfold deferCopies at hs8
  generalize hc1 : deferCopy x.top (comp { x with d := x.d + 1 } f) s2.breaks .brk s7 = c1 at hs8
  generalize hc2 : deferCopy x.top (comp { x with d := x.d + 1 } f) s2.breaks .cont c1 = c2 at hs8
  have g8 : Grows x.d c2 s8 := hs8 ▸ grows_deferCopy _ _ _ _ _ hF
  have lc2 := l8.of_grows' g8.toGrows' hx.tries
  have bc2 := b8.of_grows g8
  have gc2 : Grows x.d c1 c2 := hc2 ▸ grows_deferCopy _ _ _ _ _ hF
  have lc1 := lc2.of_grows' gc2.toGrows' hx.tries
  have bc1 := bc2.of_grows gc2
  have gc1 : Grows x.d s7 c1 := hc1 ▸ grows_deferCopy _ _ _ _ _ hF
  have l7 := lc1.of_grows' gc1.toGrows' hx.tries
  have b7 := bc1.of_grows gc1
  have g7 : Grows x.d (s6.emitJ (.jcond false x.d)) s7 := hs7 ▸ grows_emit _ _
  have l7' := l7.of_grows' g7.toGrows' hx.tries
  have b7' := b7.of_grows g7
  have l6 := l7'.of_grows' (grows_emitJ (d := x.d) _ _).toGrows' hx.tries
  have b6 := b7'.of_grows (grows_emitJ (d := x.d) _ _)
  have g6 : Grows x.d (s4.restoreCatch x.top) s6 := hs6 ▸ hF _
  have l4 := l6.of_grows' ((grows_restoreCatch (d := x.d) _ _).trans g6).toGrows' hx.tries
  have lg : ∀ p ∈ s9.log, P.tgt p.1 = some p.2 := l9.log
  have te : P.tgt s0.n = some s4.pc := l4.log (s0.n, s4.pc) (by rw [p4, ← hs4]; exact List.mem_append_right _ (List.mem_singleton_self _))
  have ts : P.tgt s6.n = some s9.pc := hl.log (_, s9.pc) (List.mem_append_right _ (List.mem_singleton_self _))
  have g69 : Grows x.d s6 s9 := ((grows_emitJ _ _).trans g7).trans (gc1.trans (gc2.trans (g8.trans g9)))
  -- the block
  have lb : Lk P ⟨fun k => match k with | .brk => s7.pc | .cont => c1.pc | .fall => c2.pc, s8.pc, (K.try x.d s4.pc).hnd⟩
      ((x.d, true) :: x.tries) s2 := by
    refine ⟨?_, ?_, ?_, ?_⟩
    · have : s2.code = s4.code := by subst hs4; rfl
      rw [this]
      exact l4.code
    · intro p hp
      refine l4.log p ?_
      rw [← hs4]
      exact List.mem_append_left _ (List.mem_append_left _ hp)
    · intro e he
      refine lg (e, s8.pc) ?_
      rw [← hs9]
      exact deferReturn_log hF0 he s8
    · rw [p4]
      exact kids_body (st := { s2 with breaks := st.breaks, returns := st.returns }) (fl := true) (K := K) (by
        rw [← hs4] at l4
        exact l4)
  have bb : LkB P ⟨fun k => match k with | .brk => s7.pc | .cont => c1.pc | .fall => c2.pc, s8.pc, (K.try x.d s4.pc).hnd⟩
      (deferWant w x.top) s2 := by
    rintro ⟨k, e⟩ hp -
    cases k with
    | brk => exact lc1.log (e, s7.pc) (hc1 ▸ deferCopy_log hF0 hp s7)
    | cont => exact lc2.log (e, c1.pc) (hc2 ▸ deferCopy_log hF0 hp c1)
    | fall => exact l8.log (e, c2.pc) (hs8 ▸ deferCopy_log hF0 hp c2)
  have lb0 := lb.of_grows' g2.toGrows' (hx.body true).tries
  have hvoid : step S P cf = .run { cf with pc := s0.pc, regs := upd cf.regs x.d S.void } := by
    have h0 : P.code[cf.pc]? = some (.void x.d) := by
      have := lb0.of_grows' (grows_emitJ (d := x.d + 1) _ _).toGrows' (hx.body true).tries
      subst hs0
      exact this.at hpc
    unfold step
    rw [h0]
    subst hs0
    simp [hpc, St.pc, St.emit]
  have hcatch : step S P { cf with pc := s0.pc, regs := upd cf.regs x.d S.void } =
      .run ⟨(s0.emitJ (.catch x.d)).pc, upd cf.regs x.d S.void, some (s4.pc, x.d), cf.mem⟩ := by
    have h0 : P.code[({ cf with pc := s0.pc, regs := upd cf.regs x.d S.void } : Cfg σ V).pc]? = some (.catch x.d s0.n) := lb0.atJ rfl
    unfold step
    rw [h0]
    simp [te, St.pc, St.emitJ]
  have hstart := Reach.cons hvoid (Reach.one hcatch)
  have hagree : Agree x.d cf ⟨(s0.emitJ (.catch x.d)).pc, upd cf.regs x.d S.void, some (s4.pc, x.d), cf.mem⟩ := agree_upd (Nat.le_refl _)
  subst hs2
  have hB := ib _ _ (deferWant w x.top) _ (hx.body true) (by
      intro k r hk
      simp only [deferWant] at hk
      split at hk
      · cases hk
      · cases hk
      · split at hk <;> cases hk) hs.1 hk.1 lb bb n ⟨(s0.emitJ (.catch x.d)).pc, upd cf.regs x.d S.void, some (s4.pc, x.d), cf.mem⟩ rfl
    (by simp [hndOf, Ctx.top, Tgts.try])
  rw [show ({ x with tries := (x.d, true) :: x.tries, d := x.d + 1 } : Ctx).fin = some x.d from rfl] at hB
  simp only [hagree.map hx.env] at hB
  generalize comp { x with tries := (x.d, true) :: x.tries, d := x.d + 1 } b (s0.emitJ (.catch x.d)) = s2 at *
  -- the first copy of the deferred code
  have hfirst := fun (s : σ) (k : Nat) (c' : Cfg σ V) (h : Lands S P x.d cf k s4.pc s c') =>
    copy_start iF hx hw hs.2 hk.2 (a := s4) (by rw [hs6]; exact l6) (by rw [hs6]; exact b6) (n := n) hh h
  rw [hs6] at hfirst
  rcases hr : exec S n b (x.env.map cf.regs) cf.mem with _ | ⟨_ | kd | v | v, s⟩ <;> rw [hr] at hB <;> simp only
  · obtain ⟨k, c', h1, h2⟩ := hB
    exact ⟨_, c', hstart.trans h1, by omega⟩
  · obtain ⟨k, c', h1⟩ := hB
    obtain ⟨c3, h2, h3, h4⟩ := hfirst s _ c' ⟨hstart.trans h1.reach, by rw [h1.pc, p4], h1.mem, hagree.trans (h1.regs.mono (Nat.le_succ _))⟩
    refine Post.lift h2 hx.fin ?_ (fun p hp => hp) (fun p hp => hp)
    refine h4.seq (fun p hp => g69.breaks _ hp) (fun p hp => g69.returns _ hp) ?_ ?_
    · intro hne
      split
      · rename_i s hr; exact absurd hr (hne s)
      · rfl
    · intro s' hr' j c4 h5
      rw [hr']
      have hv : c4.regs x.d = S.void := by
        rw [h5.regs _ (Nat.lt_succ_self _), h3, h1.regs _ (Nat.lt_succ_self _)]
        simp [upd]
      have h6 := run_jcond (S := S) (d := x.d + 1) (l7'.atJ h5.pc) ts
      rw [if_pos (by rw [hv, hS.void])] at h6
      exact .normal (h5.mem ▸ h5.trans h6)
  · obtain ⟨⟨e, he⟩, k, c', h1, h2⟩ := hB
    have hl : Lands S P x.d cf _ _ s c' := ⟨hstart.trans h1.reach, h1.pc, h1.mem, hagree.trans (h1.regs.mono (Nat.le_succ _))⟩
    have hwant : w kd = .any ∨ w kd = .at x.top := by
      rcases hwk : w kd with _ | _ | h <;> simp only [deferWant, hwk] at h2
      · exact .inl rfl
      · by_cases ht : h = x.top
        · exact .inr (by rw [ht])
        · rw [if_neg ht] at h2
          exact h2.elim
    cases kd with
    | brk =>
      have := copy_jump iF hx hw hs.2 hk.2 he (hc1 ▸ lc1) (hc1 ▸ bc1) (n := n) hh hwant hl s9.pc
      rw [hc1] at this
      exact this.mono (Nat.le_refl _) (Nat.le_refl _) (fun p hp => (gc2.trans (g8.trans g9)).breaks p hp)
        (fun p hp => (gc2.trans (g8.trans g9)).returns p hp)
    | cont =>
      have := copy_jump iF hx hw hs.2 hk.2 he (hc2 ▸ lc2) (hc2 ▸ bc2) (n := n) hh hwant hl s9.pc
      rw [hc2] at this
      exact this.mono (Nat.le_refl _) (Nat.le_refl _) (fun p hp => (g8.trans g9).breaks p hp)
        (fun p hp => (g8.trans g9).returns p hp)
    | fall =>
      have := copy_jump iF hx hw hs.2 hk.2 he (hs8 ▸ l8) (hs8 ▸ b8) (n := n) hh hwant hl s9.pc
      rw [hs8] at this
      exact this.mono (Nat.le_refl _) (Nat.le_refl _) (fun p hp => g9.breaks p hp) (fun p hp => g9.returns p hp)
  · obtain ⟨⟨e, he⟩, k, c', h1, h2⟩ := hB
    have hne : s2.returns ≠ [] := by intro h; rw [h] at he; cases he
    simp only [deferReturn, if_neg hne] at hs9
    have gr := grows_genReturn (d := x.d) x x.d (comp { x with d := x.d + 1 } f ((s8.setAll s2.returns s8.pc).restoreCatch x.top))
    rw [hs9] at gr
    obtain ⟨c3, h3, h4, h5⟩ := copy_start iF hx hw hs.2 hk.2 (a := s8.setAll s2.returns s8.pc) (l9.of_grows' gr.toGrows' hx.tries) (b9.of_grows gr)
      (n := n) hh ⟨hstart.trans h1.reach, h1.pc, h1.mem, hagree.trans h1.regs⟩
    refine Post.lift h3 hx.fin ?_ (fun p hp => hp) (fun p hp => hp)
    refine h5.seq (fun p hp => gr.breaks _ hp) (fun p hp => gr.returns _ hp) ?_ ?_
    · intro hne
      split
      · rename_i s hr; exact absurd hr (hne s)
      · rfl
    · intro s' hr' j c4 h6
      rw [hr']
      have hv : c4.regs x.d = v := by
        rw [h6.regs _ (Nat.lt_succ_self _), h4, h2]
      have h7 := return_sim (S := S) (K := K) (w := w) (d := x.d + 1) (n := n) (hs9 ▸ l9) h6.pc s9.pc s9.breaks
      rw [hs9, hv, h6.mem] at h7
      exact h7.after h6 (fun r hr => Nat.le_succ_of_le (hx.fin r hr)) (by omega)
  · obtain ⟨u, k, c', hu, h1⟩ := hB
    have h2 : step S P c' = .run ⟨s4.pc, upd c'.regs x.d v, none, s⟩ := by
      rw [h1.step, raise, h1.hnd]
      simp only [hu]
    obtain ⟨c3, h3, h4, h5⟩ := hfirst s _ ⟨s4.pc, upd c'.regs x.d v, none, s⟩ ⟨(hstart.trans h1.reach).snoc h2, rfl, rfl,
      (hagree.trans (h1.regs.mono (Nat.le_succ _))).trans (agree_upd (Nat.le_refl _))⟩
    refine Post.lift h3 hx.fin ?_ (fun p hp => hp) (fun p hp => hp)
    refine h5.seq (fun p hp => g69.breaks _ hp) (fun p hp => g69.returns _ hp) ?_ ?_
    · intro hne
      split
      · rename_i s hr; exact absurd hr (hne s)
      · rfl
    · intro s' hr' j c4 h6
      obtain rfl := h6.mem
      rw [hr']
      have hv : c4.regs x.d = v := by
        rw [h6.regs _ (Nat.lt_succ_self _), h4]
        simp [upd]
      have h7 := run_jcond (S := S) (d := x.d + 1) (l7'.atJ h6.pc) ts
      rw [if_neg (by rw [hv, ← hu, hS.wrapped]; simp)] at h7
      have h8 := run_throw (S := S) (P := P) (cf := { c4 with pc := c4.pc + 1 }) (r := x.d) (by
        rw [← hs7] at l7
        exact l7.at (by simp [h6.pc, St.pc, St.emitJ])) (x.d + 1)
      simp only [hv] at h8
      refine ⟨v, _, _, by rw [← hu, hS.again], h8.after (h6.trans h7)⟩

/-! ### `switch` -/

/-- Targets of jumps in a case. -/
def Tgts.case (K : Tgts) (brk fall : Nat) : Tgts :=
  { K with pc := fun k => match k with | .brk => brk | .cont => K.pc .cont | .fall => fall }

theorem Lk.case {K : Tgts} {ts : List (Nat × Bool)} {st : St} (h : Lk P K ts st) (brk fall : Nat) : Lk P (K.case brk fall) ts st :=
  ⟨h.code, h.log, h.ret, h.kids⟩

def SimC (S : Sem σ V) (P : Prog) (cs : Cases) : Prop := ∀ (x : Ctx) (K : Tgts) (w : Kind → Want) (es : List (Option Nat)) (first : Bool) (st : St),
  XOk x → WOk w x.d → SafeCases x.top x.last x.d w cs → KnownCs S cs → Lk P K x.tries (compCases x cs es first st).1 →
  (∀ e ∈ (compCases x cs es first st).2, P.tgt e = some (compCases x cs es first st).1.pc) →
  (∀ e, (Kind.brk, e) ∈ (compCases x cs es first st).1.breaks → P.tgt e = some (compCases x cs es first st).1.pc) →
  (∀ e, (Kind.cont, e) ∈ (compCases x cs es first st).1.breaks → w .cont ≠ .no → P.tgt e = some (K.pc .cont)) →
  ∀ (n k : Nat), k ≤ cs.len → ∃ t, (k = 0 → t = st.pc) ∧ (k < cs.len → ∀ e, es[k]? = some (some e) → P.tgt e = some t) ∧
    ∀ cf : Cfg σ V, cf.pc = t → cf.hnd = hndOf K x.top →
      Post S P K w x.d x.fin n cf (compCases x cs es first st).1.pc ((compCases x cs es first st).1.breaks.filter fun p => p.1 == .cont)
        (compCases x cs es first st).1.returns (execAt S n cs k (x.env.map cf.regs) cf.mem)

theorem simC_nil : SimC S P .nil := by
  intro x K w es first st hx hw hs hk hl hf hbr hc n k hle
  refine ⟨st.pc, fun _ => rfl, fun h => absurd h (by simp [Cases.len]), fun cf hpc hh => ?_⟩
  simp only [execAt]
  exact ⟨0, cf, .refl _, hpc, rfl, rfl, .refl _ _⟩

/-- `fallthrough` leads to the next body. -/
theorem compCases_falls (x : Ctx) (cs : Cases) (hn : cs.isNil = false) (es : List (Option Nat)) (st : St) {e : Nat} (he : (Kind.fall, e) ∈ st.breaks) :
    (e, st.pc) ∈ (compCases x cs es false st).1.log := by
  cases cs with
  | nil => cases hn
  | cons t b ft rest =>
    have h1 : ∀ o, (e, st.pc) ∈ (st.setO o).finishFall.log := by
      intro o
      refine List.mem_append_right _ (List.mem_map.2 ⟨(.fall, e), List.mem_filter.2 ⟨?_, rfl⟩, ?_⟩)
      · cases o <;> exact he
      · cases o <;> rfl
    have h2 := (comp_grows b x _).log _ (h1 es.head?.join)
    simp only [compCases]
    split
    · exact (compCases_grows rest x _ false _).log _ h2
    · exact (compCases_grows rest x _ false _).log _ h2

theorem WOk.case {x : Ctx} (hx : XOk x) {w : Kind → Want} (h : WOk w x.d) (last : Bool) : WOk (caseWant w x.top last) x.d := by
  intro k r hk
  cases k <;> simp only [caseWant] at hk
  · exact hx.top r (Want.at.inj hk)
  · exact h .cont r hk
  · split at hk
    · cases hk
    · exact hx.top r (Want.at.inj hk)

/-- One body: `s2` is the state after it, the next one begins at `p`. -/
theorem case_sim {b : Stmt} {ft : Bool} {rest : Cases} (ib : Sim S P b) {x : Ctx} {K : Tgts} {w : Kind → Want} {st F : St} {p n : Nat}
    (hx : XOk x) (hw : WOk w x.d) (hs : Safe x.top x.last x.d (caseWant w x.top rest.isNil) b) (hk : KnownS S b)
    (hl : Lk P K x.tries F) (hg : Grows' x.d (comp x b st) F) (hgb : ∀ p ∈ (comp x b st).breaks, p.1 ≠ .fall → p ∈ F.breaks)
    (hbr : ∀ e, (Kind.brk, e) ∈ F.breaks → P.tgt e = some F.pc)
    (hc : ∀ e, (Kind.cont, e) ∈ F.breaks → w .cont ≠ .no → P.tgt e = some (K.pc .cont))
    (hfall : ∀ e, (Kind.fall, e) ∈ (comp x b st).breaks → rest.isNil = false → P.tgt e = some p)
    (hnext : ft = false → ∀ (cf : Cfg σ V), cf.pc = (comp x b st).pc → ∃ c', Arrive S P x.d cf 1 F.pc cf.mem c')
    (hp : ft = true → p = (comp x b st).pc)
    (hrest : ∀ cf : Cfg σ V, cf.pc = p → cf.hnd = hndOf K x.top →
      Post S P K w x.d x.fin n cf F.pc (F.breaks.filter fun p => p.1 == .cont) F.returns (execAt S n rest 0 (x.env.map cf.regs) cf.mem))
    (cf : Cfg σ V) (hpc : cf.pc = st.pc) (hh : cf.hnd = hndOf K x.top) :
    Post S P K w x.d x.fin n cf F.pc (F.breaks.filter fun p => p.1 == .cont) F.returns
      (match exec S n b (x.env.map cf.regs) cf.mem with
       | none => none
       | some (.normal, s) => if ft then execAt S n rest 0 (x.env.map cf.regs) s else some (.normal, s)
       | some (.jump .fall, s) => execAt S n rest 0 (x.env.map cf.regs) s
       | some (.jump .brk, s) => some (.normal, s)
       | some (o, s) => some (o, s)) := by
  have hB := ib x (K.case F.pc p) (caseWant w x.top rest.isNil) st hx (hw.case hx _) hs hk ((hl.of_grows' hg hx.tries).case _ _) (by
    rintro ⟨k, e⟩ hp' hno
    cases k with
    | brk => exact hbr e (hgb _ hp' (by simp))
    | cont => exact hc e (hgb _ hp' (by simp)) hno
    | fall =>
      refine hfall e hp' ?_
      simp only [caseWant] at hno
      cases hnil : rest.isNil with
      | false => rfl
      | true => simp [hnil] at hno) n cf hpc hh
  have hcont : ∀ {j q : Nat} {s : σ} {c' : Cfg σ V}, Arrive S P x.d cf j q s c' → q = p →
      Post S P K w x.d x.fin n cf F.pc (F.breaks.filter fun p => p.1 == .cont) F.returns (execAt S n rest 0 (x.env.map cf.regs) s) := by
    rintro j q s c' h rfl
    have := hrest c' h.pc (h.hnd.trans hh)
    rw [h.mem, h.regs.map hx.env] at this
    exact this.after h hx.fin (by omega)
  rcases hr : exec S n b (x.env.map cf.regs) cf.mem with _ | ⟨_ | (_ | _ | _) | v | v, s⟩ <;> rw [hr] at hB <;> simp only
  · exact hB
  · obtain ⟨k, c', h⟩ := hB
    cases ft with
    | true =>
      simp only [if_true]
      exact hcont h (hp rfl).symm
    | false =>
      simp only [Bool.false_eq_true, if_false]
      obtain ⟨c2, h2⟩ := hnext rfl c' h.pc
      rw [h.mem] at h2
      exact .normal (h.trans h2)
  · obtain ⟨-, k, c', h, h2⟩ := hB
    exact .normal ⟨h.reach, h.pc, h.mem, (show c'.hnd = hndOf K x.top from h2).trans hh.symm, h.regs⟩
  · obtain ⟨⟨e, he⟩, k, c', h, h2⟩ := hB
    exact ⟨⟨e, List.mem_filter.2 ⟨hgb _ he (by simp), rfl⟩⟩, k, c', h, h2⟩
  · obtain ⟨-, k, c', h, h2⟩ := hB
    simp only [caseWant] at h2
    cases hnil : rest.isNil with
    | true => simp [hnil] at h2
    | false =>
      simp only [hnil, Bool.false_eq_true, if_false] at h2
      exact hcont ⟨h.reach, h.pc, h.mem, (show c'.hnd = hndOf K x.top from h2).trans hh.symm, h.regs⟩ rfl
  · cases hfin : x.fin with
    | none => rw [hfin] at hB; exact hB
    | some r =>
      rw [hfin] at hB
      obtain ⟨⟨e, he⟩, h⟩ := hB
      exact ⟨⟨e, hg.returns _ he⟩, h⟩
  · exact hB

theorem simC_cons {t : Option Nat} {b : Stmt} {ft : Bool} {rest : Cases} (ib : Sim S P b) (ir : SimC S P rest) : SimC S P (.cons t b ft rest) := by
  intro x K w es first st hx hw hs hk hl hf hbr hc n k hle
  simp only [compCases] at hl hf hbr hc ⊢
  generalize hs1 : (if first = true then st.setO es.head?.join else (st.setO es.head?.join).finishFall) = s1 at hl hf hbr hc ⊢
  have p1 : s1.pc = st.pc := by
    subst hs1
    split <;> cases es.head?.join <;> rfl
  have t1 : ∀ e, es[0]? = some (some e) → P.tgt e = some st.pc ∨ (e, st.pc) ∈ s1.log := by
    intro e he
    refine .inr ?_
    have : es.head?.join = some e := by
      rw [List.head?_eq_getElem?, he]; rfl
    subst hs1
    rw [this]
    split
    · exact List.mem_append_right _ (List.mem_singleton_self _)
    · exact List.mem_append_left _ (List.mem_append_right _ (List.mem_singleton_self _))
  have ht : ∀ j : Nat, es.tail[j]? = es[j + 1]? := fun j => List.getElem?_tail
  cases ft with
  | true =>
    simp only [if_true] at hl hf hbr hc ⊢
    have gr := compCases_grows rest x es.tail false (comp x b s1)
    have hR := fun n k hle => ir x K w es.tail false (comp x b s1) hx hw hs.2 hk.2 hl hf hbr hc n k hle
    cases k with
    | succ k =>
      obtain ⟨t, -, h2, h3⟩ := hR n k (by simp only [Cases.len] at hle; omega)
      refine ⟨t, by omega, fun hlt e he => h2 (by simp only [Cases.len] at hlt; omega) e (by rw [ht]; exact he), fun cf hpc hh => ?_⟩
      simp only [execAt]
      exact h3 cf hpc hh
    | zero =>
      obtain ⟨t', h1, -, h3⟩ := hR n 0 (Nat.zero_le _)
      obtain rfl := h1 rfl
      refine ⟨st.pc, fun _ => rfl, fun _ e he => (t1 e he).elim id fun h => ?_, fun cf hpc hh => ?_⟩
      · exact hl.log _ (gr.log _ ((comp_grows b x s1).log _ h))
      · have := case_sim (ft := true) (p := (comp x b s1).pc) ib hx hw hs.1 hk.1 hl gr (compCases_breaks rest x _ false _) hbr hc
          (fun e he hn => hl.log (e, _) (compCases_falls x rest hn _ _ he)) (fun h => by cases h) (fun _ => rfl) h3 cf (hpc.trans p1.symm) hh
        simp only [execAt]
        exact this
  | false =>
    simp only [Bool.false_eq_true, if_false] at hl hf hbr hc ⊢
    have gr := compCases_grows rest x es.tail false ((comp x b s1).emitJ .jmp)
    have hR := fun n k hle => ir x K w es.tail false ((comp x b s1).emitJ .jmp) hx hw hs.2 hk.2 hl (fun e he => hf e (List.mem_cons_of_mem _ he)) hbr hc n k hle
    have hg' := (grows_emitJ (d := x.d) (comp x b s1) .jmp).toGrows'.trans gr
    cases k with
    | succ k =>
      obtain ⟨t, -, h2, h3⟩ := hR n k (by simp only [Cases.len] at hle; omega)
      refine ⟨t, by omega, fun hlt e he => h2 (by simp only [Cases.len] at hlt; omega) e (by rw [ht]; exact he), fun cf hpc hh => ?_⟩
      simp only [execAt]
      exact h3 cf hpc hh
    | zero =>
      obtain ⟨t', h1, -, h3⟩ := hR n 0 (Nat.zero_le _)
      obtain rfl := h1 rfl
      refine ⟨st.pc, fun _ => rfl, fun _ e he => (t1 e he).elim id fun h => ?_, fun cf hpc hh => ?_⟩
      · exact hl.log _ (hg'.log _ ((comp_grows b x s1).log _ h))
      · have := case_sim (ft := false) (p := ((comp x b s1).emitJ .jmp).pc) ib hx hw hs.1 hk.1 hl hg' (fun p hp hk => compCases_breaks rest x _ false _ p hp hk) hbr hc
          (fun e he hn => hl.log (e, _) (compCases_falls x rest hn _ _ he))
          (fun _ cf hcf => ⟨_, run_jmp ((hl.of_grows' gr hx.tries).atJ hcf) (hf _ (List.mem_cons_self ..)) _⟩) (fun h => by cases h) h3 cf (hpc.trans p1.symm) hh
        simp only [execAt]
        exact this

theorem dflt_le : (cs : Cases) → (k m : Nat) → dflt cs k = some m → k ≤ m ∧ m < k + cs.len
  | .nil, k, m, h => by cases h
  | .cons none b ft rest, k, m, h => by
    simp only [dflt, Option.some.injEq] at h
    simp only [Cases.len]
    omega
  | .cons (some i) b ft rest, k, m, h => by
    have := dflt_le rest (k + 1) m h
    simp only [Cases.len]
    omega

theorem fillDefault_keeps (e e' : Nat) : ∀ (es : List (Option Nat)) (j : Nat), es[j]? = some (some e') → (fillDefault e es)[j]? = some (some e')
  | none :: _, _ + 1, h => h
  | some _ :: _, 0, h => h
  | some _ :: es, j + 1, h => fillDefault_keeps e e' es j h

theorem fillDefault_dflt (x : Ctx) (e : Nat) : (cs : Cases) → (st : St) → (k m : Nat) → dflt cs k = some m →
    (fillDefault e (genTests x cs st).2)[m - k]? = some (some e)
  | .nil, st, k, m, h => by cases h
  | .cons none b ft rest, st, k, m, h => by
    simp only [dflt, Option.some.injEq] at h
    subst h
    simp [genTests, fillDefault]
  | .cons (some i) b ft rest, st, k, m, h => by
    have h1 := dflt_le rest (k + 1) m h
    have h2 := fillDefault_dflt x e rest ((st.emit (.case i x.d (x.d + 1) x.env)).emitJ (.jcond true (x.d + 1))) (k + 1) m h
    have : m - k = m - (k + 1) + 1 := by omega
    rw [this]
    exact h2

/-- What the machine does on the tests of a `switch`: `T` are the places where the bodies begin. -/
def Picks (S : Sem σ V) (P : Prog) (d : Nat) (cf : Cfg σ V) (len k E : Nat) (T : Nat → Nat) : Res σ V (Option Nat) → Prop
  | .exn v s => ∃ j c', Raises S P d cf v s j c'
  | .ok (some m) s => k ≤ m ∧ m < k + len ∧ ∃ j c', Arrive S P d cf j (T (m - k)) s c'
  | .ok none s => ∃ j c', Arrive S P d cf j E s c'

theorem Picks.after {d : Nat} {cf c' : Cfg σ V} {j p len k E : Nat} {s : σ} {T : Nat → Nat} {r : Res σ V (Option Nat)}
    (h : Arrive S P d cf j p s c') (hp : Picks S P d c' len k E T r) : Picks S P d cf len k E T r := by
  match r, hp with
  | .exn v s, ⟨j, c2, h2⟩ => exact ⟨_, c2, h2.after h⟩
  | .ok (some m) s, ⟨h1, h1', j, c2, h2⟩ => exact ⟨h1, h1', _, c2, h.trans h2⟩
  | .ok none s, ⟨j, c2, h2⟩ => exact ⟨_, c2, h.trans h2⟩

theorem Picks.succ {d : Nat} {cf : Cfg σ V} {len k E : Nat} {T : Nat → Nat} {r : Res σ V (Option Nat)}
    (hp : Picks S P d cf len (k + 1) E (fun j => T (j + 1)) r) : Picks S P d cf (len + 1) k E T r := by
  match r, hp with
  | .exn v s, h => exact h
  | .ok (some m) s, ⟨h1, h1', j, c2, h2⟩ =>
    refine ⟨by omega, by omega, j, c2, ?_⟩
    have : m - k = m - (k + 1) + 1 := by omega
    rw [this]
    exact h2
  | .ok none s, h => exact h

/-- CMP.EQ on an expression of a case. -/
theorem run_case {cf : Cfg σ V} {i r d : Nat} {env : List Nat} (h : P.code[cf.pc]? = some (.case i r d env)) :
    match S.same i (env.map cf.regs) (cf.regs r) cf.mem with
    | .ok b s => Arrive S P d cf 1 (cf.pc + 1) s ⟨cf.pc + 1, upd cf.regs d (S.ofBool b), cf.hnd, s⟩
    | .exn v s => ∀ d, Raises S P d cf v s 0 cf := by
  split
  · rename_i b s hv
    exact ⟨Reach.one (by simp [step, h, hv]), rfl, rfl, rfl, agree_upd (Nat.le_refl _)⟩
  · rename_i v s hv
    exact fun d => ⟨.refl _, by simp [step, h, hv], rfl, .refl _ _⟩

theorem tests_sim (hS : S.Lawful) {x : Ctx} {K : Tgts} (hx : XOk x) : (cs : Cases) → (st : St) → Lk P K x.tries (genTests x cs st).1 → (T : Nat → Nat) →
    (∀ j e, (genTests x cs st).2[j]? = some (some e) → P.tgt e = some (T j)) → (k : Nat) → (cf : Cfg σ V) → cf.pc = st.pc →
    Picks S P (x.d + 1) cf cs.len k (genTests x cs st).1.pc T (pick S (x.env.map cf.regs) (cf.regs x.d) cs k cf.mem)
  | .nil, st, hl, T, hT, k, cf, hpc => ⟨0, cf, .refl _, hpc, rfl, rfl, .refl _ _⟩
  | .cons none b ft rest, st, hl, T, hT, k, cf, hpc => by
    simp only [genTests] at hl hT ⊢
    simp only [pick, Cases.len]
    exact (tests_sim hS hx rest st hl (fun j => T (j + 1)) (fun j e h => hT (j + 1) e h) (k + 1) cf hpc).succ
  | .cons (some i) b ft rest, st, hl, T, hT, k, cf, hpc => by
    simp only [genTests] at hl hT ⊢
    simp only [pick, Cases.len]
    have l2 := hl.of_grows' (genTests_grows (d := x.d) x rest _).1.toGrows' hx.tries
    have l1 := l2.of_grows' (grows_emitJ (d := x.d) _ _).toGrows' hx.tries
    have hr := run_case (S := S) (l1.at hpc)
    have ht : P.tgt st.n = some (T 0) := hT 0 st.n rfl
    rcases hv : S.same i (x.env.map cf.regs) (cf.regs x.d) cf.mem with ⟨o, s⟩ | ⟨v, s⟩ <;> rw [hv] at hr <;> simp only at hr ⊢
    · have h2 := run_jcond (S := S) (P := P) (cf := ⟨cf.pc + 1, upd cf.regs (x.d + 1) (S.ofBool o), cf.hnd, s⟩) (d := x.d + 1) (o := true)
        (l2.atJ (by simp [hpc, St.pc, St.emit])) ht
      rw [show S.truthy ((⟨cf.pc + 1, upd cf.regs (x.d + 1) (S.ofBool o), cf.hnd, s⟩ : Cfg σ V).regs (x.d + 1)) = o by simp [upd, hS.bool]] at h2
      cases o with
      | true =>
        simp only [if_true] at h2
        exact ⟨Nat.le_refl _, by omega, _, _, by rw [Nat.sub_self]; exact hr.trans h2⟩
      | false =>
        simp only [Bool.false_eq_true, if_false] at h2
        have h3 := hr.trans h2
        have h4 := tests_sim hS hx rest _ hl (fun j => T (j + 1)) (fun j e h => hT (j + 1) e h) (k + 1)
          ⟨cf.pc + 1 + 1, upd cf.regs (x.d + 1) (S.ofBool false), cf.hnd, s⟩ (by simp [hpc, St.pc, St.emit, St.emitJ])
        simp only [h3.regs.map (fun q hq => Nat.lt_succ_of_lt (hx.env q hq))] at h4
        rw [show upd cf.regs (x.d + 1) (S.ofBool false) x.d = cf.regs x.d by simp [upd]] at h4
        exact (h4.after h3).succ
    · exact ⟨_, _, hr _⟩

/-- The code of `switch` which is neither empty nor has only `default`. -/
def genSwitch (x : Ctx) (i : Nat) (cs : Cases) (st : St) : St :=
  let old := st.breaks
  let st := { st with breaks := [] }.emit (.eval i x.d x.env)
  match genTests x cs st with
  | (st, es) =>
    let e := st.n
    let st := st.emitJ .jmp
    match compCases x cs (fillDefault e es) true st with
    | (st, fs) =>
      let st := if (dflt cs 0).isNone then st.set e st.pc else st
      (st.setAll fs st.pc).finishBC none old

theorem genSwitch_sim (hS : S.Lawful) {cs : Cases} (ic : SimC S P cs) {x : Ctx} {K : Tgts} {w : Kind → Want} {st : St} {i : Nat} (hx : XOk x) (hw : WOk w x.d)
    (hs : SafeCases x.top x.last x.d w cs) (hk : KnownCs S cs) (hl : Lk P K x.tries (genSwitch x i cs st)) (hb : LkB P K w (genSwitch x i cs st))
    (n : Nat) (cf : Cfg σ V) (hpc : cf.pc = st.pc) (hh : cf.hnd = hndOf K x.top) :
    Post S P K w x.d x.fin n cf (genSwitch x i cs st).pc (genSwitch x i cs st).breaks (genSwitch x i cs st).returns
      (exec S n (.switch i cs) (x.env.map cf.regs) cf.mem) := by
  simp only [genSwitch] at hl hb ⊢
  simp only [exec]
  generalize hs0 : ({ st with breaks := [] } : St).emit (.eval i x.d x.env) = s0 at hl hb ⊢
  generalize hs3 : (genTests x cs s0).1.emitJ .jmp = s3 at hl hb ⊢
  generalize hs4 : (compCases x cs (fillDefault (genTests x cs s0).1.n (genTests x cs s0).2) true s3).1 = s4 at hl hb ⊢
  generalize hfs : (compCases x cs (fillDefault (genTests x cs s0).1.n (genTests x cs s0).2) true s3).2 = fs at hl hb ⊢
  generalize hs5 : (if (dflt cs 0).isNone = true then s4.set (genTests x cs s0).1.n s4.pc else s4) = s5 at hl hb ⊢
  have p5 : s5.pc = s4.pc := by subst hs5; split <;> rfl
  have r5 : s5.breaks = s4.breaks := by subst hs5; split <;> rfl
  have g5 : Grows x.d s4 s5 := by
    subst hs5
    split
    · exact grows_set _ _ _
    · exact .refl _ _
  have l6 := hl.of_grows' (grows_finishBC (d := x.d) _ _ _) hx.tries
  have l5 := l6.of_grows' (grows_setAll (d := x.d) _ _ _).toGrows' hx.tries
  have l4 := l5.of_grows' g5.toGrows' hx.tries
  have g4 : Grows' x.d s3 s4 := hs4 ▸ compCases_grows cs x _ true s3
  have l3 := l4.of_grows' g4 hx.tries
  have g3 : Grows x.d (genTests x cs s0).1 s3 := hs3 ▸ grows_emitJ _ _
  have l2 := l3.of_grows' g3.toGrows' hx.tries
  have l0 := l2.of_grows' (genTests_grows (d := x.d) x cs s0).1.toGrows' hx.tries
  have hC := fun n k hle => ic x K w (fillDefault (genTests x cs s0).1.n (genTests x cs s0).2) true s3 hx hw hs hk (by rw [hs4]; exact l4)
    (by
      rw [hs4, hfs, ← p5]
      exact fun e he => l6.log (e, s5.pc) (List.mem_append_right _ (List.mem_map.2 ⟨e, he, rfl⟩)))
    (by
      rw [hs4, ← p5, ← r5]
      exact fun e he => hl.log (e, s5.pc) (List.mem_append_right _ (List.mem_filterMap.2 ⟨_, he, rfl⟩)))
    (by
      rw [hs4, ← r5]
      exact fun e he hno => hb (.cont, e) (List.mem_append_left _ (List.mem_filter.2 ⟨he, rfl⟩)) hno) n k hle
  rw [hs4] at hC
  have hC' : ∀ k, ∃ t, k ≤ cs.len → ((∀ e, k < cs.len → (fillDefault (genTests x cs s0).1.n (genTests x cs s0).2)[k]? = some (some e) → P.tgt e = some t) ∧
      ∀ cf : Cfg σ V, cf.pc = t → cf.hnd = hndOf K x.top → Post S P K w x.d x.fin n cf s4.pc (s4.breaks.filter fun p => p.1 == .cont) s4.returns
        (execAt S n cs k (x.env.map cf.regs) cf.mem)) := by
    intro k
    by_cases hle : k ≤ cs.len
    · obtain ⟨t, -, h2, h3⟩ := hC n k hle
      exact ⟨t, fun _ => ⟨fun e hlt he => h2 hlt e he, h3⟩⟩
    · exact ⟨0, fun h => absurd h hle⟩
  obtain ⟨T, hT⟩ := Classical.axiomOfChoice hC'
  have hbody : ∀ (k : Nat), k ≤ cs.len → ∀ (j : Nat) (s : σ) (c' : Cfg σ V), Arrive S P x.d cf j (T k) s c' →
      Post S P K w x.d x.fin n cf ((s5.setAll fs s5.pc).finishBC none st.breaks).pc ((s5.setAll fs s5.pc).finishBC none st.breaks).breaks
        ((s5.setAll fs s5.pc).finishBC none st.breaks).returns (execAt S n cs k (x.env.map cf.regs) s) := by
    intro k hle j s c' h
    have h2 := (hT k hle).2 c' h.pc (h.hnd.trans hh)
    rw [h.mem, h.regs.map hx.env] at h2
    have h3 := h2.after (g' := n) h hx.fin (by omega)
    rw [← p5] at h3
    refine h3.mono (Nat.le_refl _) (Nat.le_refl _) ?_ (fun p hp => g5.returns p hp)
    rintro ⟨k, e⟩ hp
    obtain ⟨h4, h5⟩ := List.mem_filter.1 hp
    refine List.mem_append_left _ (List.mem_filter.2 ⟨(r5 ▸ h4 : _ ∈ s5.breaks), ?_⟩)
    cases k <;> first | rfl | cases h5
  have hr := run_eval (S := S) (P := P) (cf := cf) (i := i) (r := x.d) (env := x.env) (by subst hs0; exact l0.at hpc)
  rcases hv : S.expr i (x.env.map cf.regs) cf.mem with ⟨v, s⟩ | ⟨v, s⟩ <;> rw [hv] at hr <;> simp only at hr ⊢
  · have p0 : cf.pc + 1 = s0.pc := by subst hs0; simp [hpc, St.pc, St.emit]
    have hlen : ∀ j e, (genTests x cs s0).2[j]? = some (some e) → j < cs.len := by
      intro j e he
      rw [← genTests_len x cs s0]
      exact (List.getElem?_eq_some_iff.1 he).1
    have ht := tests_sim hS hx cs s0 l2 T (fun j e he => (hT j (Nat.le_of_lt (hlen j e he))).1 e (hlen j e he) (fillDefault_keeps _ _ _ _ he)) 0
      ⟨cf.pc + 1, upd cf.regs x.d v, cf.hnd, s⟩ p0
    simp only [hr.regs.map hx.env] at ht
    rw [show upd cf.regs x.d v x.d = v by simp [upd]] at ht
    rcases hp : pick S (x.env.map cf.regs) v cs 0 s with ⟨_ | m, s⟩ | ⟨v, s⟩ <;> rw [hp] at ht <;> simp only [Picks] at ht ⊢
    · obtain ⟨j, c', h⟩ := ht
      have hjm : P.code[c'.pc]? = some (.jmp (genTests x cs s0).1.n) := by
        rw [← hs3] at l3
        exact l3.atJ h.pc
      cases hd : dflt cs 0 with
      | none =>
        have htgt : P.tgt (genTests x cs s0).1.n = some s5.pc := by
          rw [p5]
          refine l5.log (_, s4.pc) ?_
          rw [← hs5, hd]
          exact List.mem_append_right _ (List.mem_singleton_self _)
        have h2 := run_jmp (S := S) hjm htgt x.d
        rw [h.mem] at h2
        exact .normal ((hr.trans (h.mono (Nat.le_succ _))).trans h2)
      | some m =>
        obtain ⟨-, hm⟩ := dflt_le cs 0 m hd
        rw [Nat.zero_add] at hm
        have h2 := run_jmp (S := S) hjm ((hT m (Nat.le_of_lt hm)).1 _ hm (fillDefault_dflt x _ cs s0 0 m hd)) x.d
        rw [h.mem] at h2
        exact hbody m (Nat.le_of_lt hm) _ _ _ ((hr.trans (h.mono (Nat.le_succ _))).trans h2)
    · obtain ⟨-, hm, j, c', h⟩ := ht
      exact hbody m (by omega) _ _ _ (hr.trans (h.mono (Nat.le_succ _)))
    · obtain ⟨j, c', h⟩ := ht
      exact .thr ((h.mono (Nat.le_succ _)).after hr)
  · exact .thr (hr _)

theorem sim_switch_nil (i : Nat) : Sim S P (.switch i .nil) := by
  intro x K w st hx hw hs hk hl hb n cf hpc hh
  simp only [comp] at hl hb ⊢
  simp only [exec, pick, dflt]
  have l0 : Lk P K x.tries (({ st with breaks := [] } : St).emit (.eval i x.d x.env)) := ⟨hl.code, hl.log, hl.ret, hl.kids⟩
  have hr := run_eval (S := S) (P := P) (cf := cf) (i := i) (r := x.d) (env := x.env) (l0.at hpc)
  rcases hv : S.expr i (x.env.map cf.regs) cf.mem with ⟨v, s⟩ | ⟨v, s⟩ <;> rw [hv] at hr <;> simp only at hr ⊢
  · exact .normal ⟨hr.reach, by simp [hpc, St.pc, St.emit], rfl, rfl, hr.regs⟩
  · exact .thr (hr _)

theorem sim_switch_default {i : Nat} {b : Stmt} {ft : Bool} (ib : Sim S P b) : Sim S P (.switch i (.cons none b ft .nil)) := by
  intro x K w st hx hw hs hk hl hb n cf hpc hh
  simp only [comp] at hl hb ⊢
  simp only [exec, pick, dflt]
  generalize hs0 : ({ st with breaks := [] } : St).emit (.eval i x.d x.env) = s0 at hl hb ⊢
  have l1 := hl.of_grows' (grows_finishBC (d := x.d) _ _ _) hx.tries
  have l0 := l1.of_grows' (comp_grows b x s0).toGrows' hx.tries
  have hr := run_eval (S := S) (P := P) (cf := cf) (i := i) (r := x.d) (env := x.env) (by subst hs0; exact l0.at hpc)
  have p0 : cf.pc + 1 = s0.pc := by subst hs0; simp [hpc, St.pc, St.emit]
  rcases hv : S.expr i (x.env.map cf.regs) cf.mem with ⟨v, s⟩ | ⟨v, s⟩ <;> rw [hv] at hr <;> simp only at hr ⊢
  · simp only [execAt, ite_self]
    have h1 := case_sim (ft := true) (rest := .nil) (p := (comp x b s0).pc) (n := n) ib hx hw hs.1 hk.1 l1 (.refl _ _) (fun _ h _ => h)
      (fun e he => hl.log (e, _) (List.mem_append_right _ (List.mem_filterMap.2 ⟨_, he, rfl⟩)))
      (fun e he hno => hb (.cont, e) (List.mem_append_left _ (List.mem_filter.2 ⟨he, rfl⟩)) hno)
      (fun e he hn => by cases hn) (fun h => by cases h) (fun _ => rfl)
      (fun c hpc hh => by simp only [execAt]; exact ⟨0, c, .refl _, hpc, rfl, rfl, .refl _ _⟩)
      ⟨cf.pc + 1, upd cf.regs x.d v, cf.hnd, s⟩ p0 hh
    simp only [hr.regs.map hx.env, execAt, ite_self] at h1
    refine Post.after (g := n) hr hx.fin (by omega) (h1.mono (Nat.le_refl _) (Nat.le_refl _) ?_ (fun p hp => hp))
    rintro ⟨k, e⟩ hp
    obtain ⟨h4, h5⟩ := List.mem_filter.1 hp
    refine List.mem_append_left _ (List.mem_filter.2 ⟨h4, ?_⟩)
    cases k <;> first | rfl | cases h5
  · exact .thr (hr _)

mutual
/-- The code of a statement does what the statement means. -/
theorem comp_sim (hS : S.Lawful) : (s : Stmt) → Sim S P s
  | .skip => sim_skip
  | .act i => sim_act i
  | .seq a b => sim_seq (comp_sim hS a) (comp_sim hS b)
  | .ite _ t => sim_ite (comp_sim hS t)
  | .itee _ t e => sim_itee (comp_sim hS t) (comp_sim hS e)
  | .while _ b => sim_while (comp_sim hS b)
  | .repeat b _ => sim_repeat (comp_sim hS b)
  | .forIn _ _ b => sim_forIn (comp_sim hS b)
  | .switch i .nil => sim_switch_nil i
  | .switch _ (.cons none b _ .nil) => sim_switch_default (comp_sim hS b)
  | .switch _ (.cons (some t) b ft rest) => fun _ _ _ _ hx hw hs hk hl hb =>
    genSwitch_sim hS (cases_sim hS (.cons (some t) b ft rest)) hx hw hs hk hl hb
  | .switch _ (.cons none b ft (.cons t b' ft' rest)) => fun _ _ _ _ hx hw hs hk hl hb =>
    genSwitch_sim hS (cases_sim hS (.cons none b ft (.cons t b' ft' rest))) hx hw hs hk hl hb
  | .jump k => sim_jump k
  | .ret i => sim_ret i
  | .throw i => sim_throw i
  | .assert c k => sim_assert c k
  | .tryCatch b h => sim_tryCatch (comp_sim hS b) (comp_sim hS h)
  | .tryDefer b f => sim_tryDefer hS (comp_sim hS b) (comp_sim hS f)

theorem cases_sim (hS : S.Lawful) : (cs : Cases) → SimC S P cs
  | .nil => simC_nil
  | .cons _ b _ rest => simC_cons (comp_sim hS b) (cases_sim hS rest)
end

end Verif.Ctl
