import Verif.Ctl.Count

/-
Each jump entry is in one instruction, and targets are inside of the code.
-/
namespace Verif.Ctl

/-- The jump entry of an instruction. -/
def Instr.entry : Instr → Option Nat
  | .jmp e => some e
  | .jcond _ _ e => some e
  | .catch _ e => some e
  | .next _ _ e => some e
  | _ => none

structure Wf (st : St) : Prop where
  tgt  : ∀ p ∈ st.log, p.2 ≤ st.pc
  code : st.code.filterMap Instr.entry = List.range st.n

theorem Wf.emit {st : St} (h : Wf st) {i : Instr} (hi : i.entry = none) : Wf (st.emit i) :=
  ⟨fun p hp => Nat.le_trans (h.tgt p hp) (by simp [St.pc, St.emit]), by simp [St.emit, h.code, hi]⟩

theorem Wf.emitJ {st : St} (h : Wf st) {i : Nat → Instr} (hi : ∀ n, (i n).entry = some n) : Wf (st.emitJ i) :=
  ⟨fun p hp => Nat.le_trans (h.tgt p hp) (by simp [St.pc, St.emitJ]), by simp [St.emitJ, h.code, hi, List.range_succ]⟩

theorem Wf.set {st : St} (h : Wf st) (e : Nat) {t : Nat} (ht : t ≤ st.pc) : Wf (st.set e t) := by
  refine ⟨fun p hp => ?_, h.code⟩
  rcases List.mem_append.1 hp with hp | hp
  · exact h.tgt p hp
  · simp only [List.mem_singleton] at hp; subst hp; exact ht

theorem Wf.setAll {st : St} (h : Wf st) (es : List Nat) {t : Nat} (ht : t ≤ st.pc) : Wf (st.setAll es t) := by
  refine ⟨fun p hp => ?_, h.code⟩
  rcases List.mem_append.1 hp with hp | hp
  · exact h.tgt p hp
  · simp only [List.mem_map] at hp; obtain ⟨e, -, rfl⟩ := hp; exact ht

theorem Wf.setO {st : St} (h : Wf st) (e : Option Nat) : Wf (st.setO e) := by
  cases e with
  | none => exact h
  | some e => exact h.set e (Nat.le_refl _)

theorem Wf.congr {st st' : St} (h : Wf st) (hc : st'.code = st.code) (hl : st'.log = st.log) (hn : st'.n = st.n) : Wf st' :=
  ⟨fun p hp => by rw [hl] at hp; simpa [St.pc, hc] using h.tgt p hp, by rw [hc, hn, h.code]⟩

theorem Wf.restoreCatch {st : St} (h : Wf st) (top : Option Nat) : Wf (st.restoreCatch top) := by
  cases top with
  | none => exact h.emit rfl
  | some r => exact (h.emitJ (i := .catch r) fun _ => rfl).congr rfl rfl rfl

theorem Wf.updateKids {st : St} (h : Wf st) (r : Nat) : Wf (st.updateKids r) := by
  refine ⟨fun p hp => ?_, h.code⟩
  rcases List.mem_append.1 hp with hp | hp
  · exact h.tgt p hp
  · simp only [List.mem_map] at hp; obtain ⟨e, -, rfl⟩ := hp; exact Nat.le_refl _

theorem Wf.finishFall {st : St} (h : Wf st) : Wf st.finishFall := by
  refine ⟨fun p hp => ?_, h.code⟩
  rcases List.mem_append.1 hp with hp | hp
  · exact h.tgt p hp
  · simp only [List.mem_map] at hp; obtain ⟨e, -, rfl⟩ := hp; exact Nat.le_refl _

theorem Wf.finishBC {st : St} (h : Wf st) {cont : Option Nat} (hc : ∀ c, cont = some c → c ≤ st.pc) (old : List (Kind × Nat)) :
    Wf (st.finishBC cont old) := by
  refine ⟨fun p hp => ?_, h.code⟩
  rcases List.mem_append.1 hp with hp | hp
  · exact h.tgt p hp
  · simp only [List.mem_filterMap] at hp
    obtain ⟨⟨k, e⟩, -, hp⟩ := hp
    cases k with
    | brk => simp only [resolve, Option.some.injEq] at hp; subst hp; exact Nat.le_refl _
    | cont =>
      cases cont with
      | none => cases hp
      | some c => simp only [resolve, Option.map_some, Option.some.injEq] at hp; subst hp; exact hc c rfl
    | fall => cases hp

theorem Wf.finishLoop {st : St} (h : Wf st) {c : Nat} (hc : c ≤ st.pc) (old : List (Kind × Nat)) : Wf (st.finishBC (some c) old) :=
  h.finishBC (fun _ h => Option.some.inj h ▸ hc) old

theorem wf_genInner (x : Ctx) (c : Cond) : ∀ (op : Bool) (st : St) (J N : List Nat), Wf st → Wf (genInner x c op st J N).1 := by
  induction c with
  | not c ih => intro op st J N h; exact ih (!op) st J N h
  | leaf i known =>
    intro op st J N h
    simp only [genInner]
    split
    · exact h.emitJ fun _ => rfl
    · split
      · exact h
      · exact (h.emit rfl).emitJ fun _ => rfl
  | or a b iha ihb =>
    intro op st J N h
    simp only [genInner]
    split
    · exact ihb _ _ _ _ (iha _ _ _ _ h)
    · exact ihb _ _ _ _ (iha _ _ _ _ h)
  | and a b iha ihb =>
    intro op st J N h
    simp only [genInner]
    split
    · exact ihb _ _ _ _ (iha _ _ _ _ h)
    · exact ihb _ _ _ _ (iha _ _ _ _ h)

theorem wf_genCond (x : Ctx) (c : Cond) (op : Bool) (st : St) (h : Wf st) : Wf (genCond x c op st).1 :=
  (wf_genInner x c op st [] [] h).setAll _ (Nat.le_refl _)

theorem wf_genTests (x : Ctx) (cs : Cases) : ∀ (st : St), Wf st → Wf (genTests x cs st).1 := by
  match cs with
  | .nil => intro st h; exact h
  | .cons none _ _ rest => intro st h; exact wf_genTests x rest st h
  | .cons (some i) _ _ rest =>
    intro st h; exact wf_genTests x rest _ ((h.emit (i := .case i x.d (x.d + 1) x.env) rfl).emitJ (i := .jcond true (x.d + 1)) fun _ => rfl)

theorem wf_genJump (x : Ctx) (k : Kind) (st : St) (h : Wf st) : Wf (genJump x k st) := by
  unfold genJump
  refine Wf.congr (st := St.emitJ (match x.last with
    | some r => st.restoreCatch (some r)
    | none => st) .jmp) ?_ rfl rfl rfl
  split
  · exact (h.restoreCatch _).emitJ fun _ => rfl
  · exact h.emitJ fun _ => rfl

theorem wf_genReturn (x : Ctx) (r : Nat) (st : St) (h : Wf st) : Wf (genReturn x r st) := by
  unfold genReturn
  split
  · simp only
    split
    · exact ((h.emit rfl).emitJ (i := .jmp) fun _ => rfl).congr rfl rfl rfl
    · exact (h.emitJ (i := .jmp) fun _ => rfl).congr rfl rfl rfl
  · exact h.emit rfl

theorem wf_deferCopy (top : Option Nat) (f : St → St) (hf : ∀ st, Wf st → Wf (f st)) (tryB : List (Kind × Nat)) (k : Kind) (st : St)
    (h : Wf st) : Wf (deferCopy top f tryB k st) := by
  unfold deferCopy
  simp only
  split
  · exact h
  · exact ((hf _ ((h.setAll _ (Nat.le_refl _)).restoreCatch _)).emitJ (i := .jmp) fun _ => rfl).congr rfl rfl rfl

theorem wf_deferReturn (x : Ctx) (r : Nat) (f : St → St) (hf : ∀ st, Wf st → Wf (f st)) (tryR : List Nat) (st : St)
    (h : Wf st) : Wf (deferReturn x r f tryR st) := by
  unfold deferReturn
  split
  · exact h
  · exact wf_genReturn _ _ _ (hf _ ((h.setAll _ (Nat.le_refl _)).restoreCatch _))

theorem wf_switch (cs : Cases) {s2 : St} {fs : List Nat} (e : Nat) (old : List (Kind × Nat)) (h : Wf s2) :
    Wf (((if (dflt cs 0).isNone then s2.set e s2.pc else s2).setAll fs
      (if (dflt cs 0).isNone then s2.set e s2.pc else s2).pc).finishBC none old) := by
  refine Wf.finishBC (Wf.setAll ?_ _ (Nat.le_refl _)) (fun c h => by cases h) _
  split
  · exact h.set _ (Nat.le_refl _)
  · exact h

theorem pc_comp (x : Ctx) (s : Stmt) (st : St) : st.pc ≤ (comp x s st).pc := (comp_grows s x st).code.length_le

theorem pc_genCond (x : Ctx) (c : Cond) (op : Bool) (st : St) : st.pc ≤ (genCond x c op st).1.pc := by
  obtain ⟨t, h⟩ := ((genCond_grows x c op st).grows 0).code
  simp only [St.pc, ← h, List.length_append]; omega

mutual
theorem comp_wf : (s : Stmt) → (x : Ctx) → (st : St) → Wf st → Wf (comp x s st)
  | .skip, x, st, h => h
  | .act i, x, st, h => h.emit rfl
  | .seq s t, x, st, h => comp_wf t x _ (comp_wf s x st h)
  | .ite c t, x, st, h => (comp_wf t x _ (wf_genCond x c false st h)).setAll _ (Nat.le_refl _)
  | .itee c t e, x, st, h =>
    (comp_wf e x _ (((comp_wf t x _ (wf_genCond x c false st h)).emitJ (i := .jmp) fun _ => rfl).setAll _ (Nat.le_refl _))).set _ (Nat.le_refl _)
  | .while c b, x, st, h => by
    simp only [comp]
    split
    · exact h
    · have h0 : Wf { st with breaks := [] } := h.congr rfl rfl rfl
      have p1 := pc_genCond x.inLoop c false { st with breaks := [] }
      have p2 := pc_comp x.inLoop b (genCond x.inLoop c false { st with breaks := [] }).1
      have p3 := pc_genCond x.inLoop c true (comp x.inLoop b (genCond x.inLoop c false { st with breaks := [] }).1)
      refine Wf.finishLoop (Wf.setAll (Wf.setAll (wf_genCond _ _ _ _ (comp_wf b _ _ (wf_genCond _ _ _ _ h0))) _ (Nat.le_trans p2 p3)) _ ?_) ?_ _
      · exact Nat.le_refl _
      · exact Nat.le_trans p1 (Nat.le_trans p2 p3)
  | .repeat b c, x, st, h => by
    simp only [comp]
    have h0 : Wf { st with breaks := [] } := h.congr rfl rfl rfl
    have p2 := pc_comp x.inLoop b { st with breaks := [] }
    split
    · exact Wf.finishLoop (comp_wf b _ _ h0) (Nat.le_refl _) _
    · have p3 := pc_genCond x.inLoop c true (comp x.inLoop b { st with breaks := [] })
      exact Wf.finishLoop (Wf.setAll (wf_genCond _ _ _ _ (comp_wf b _ _ h0)) _ (Nat.le_trans p2 p3)) p3 _
  | .forIn i j b, x, st, h => by
    simp only [comp]
    have h0 : Wf ((({ st with breaks := [] } : St).emit (.eval i x.d x.env)).emitJ .jmp) :=
      ((h.congr rfl rfl rfl : Wf { st with breaks := [] }).emit rfl).emitJ fun _ => rfl
    have p2 := pc_comp x.inLoop b ((({ st with breaks := [] } : St).emit (.eval i x.d x.env)).emitJ .jmp)
    have p3 : ∀ s : St, s.pc ≤ (s.emitJ (.next j x.env)).pc := fun s => by simp [St.pc, St.emitJ]
    exact Wf.finishLoop (Wf.set (Wf.set ((comp_wf b _ _ h0).emitJ fun _ => rfl) _ (Nat.le_trans p2 (p3 _))) _ (p3 _)) (p3 _) _
  | .switch i .nil, x, st, h => (h.emit (i := .eval i x.d x.env) rfl).congr rfl rfl rfl
  | .switch i (.cons none b ft .nil), x, st, h => by
    simp only [comp]
    have h0 : Wf (({ st with breaks := [] } : St).emit (.eval i x.d x.env)) := (h.congr rfl rfl rfl : Wf { st with breaks := [] }).emit rfl
    exact Wf.finishBC (comp_wf b _ _ h0) (fun c h => by cases h) _
  | .switch i (.cons (some t) b ft rest), x, st, h => by
    simp only [comp]
    have h0 : Wf (({ st with breaks := [] } : St).emit (.eval i x.d x.env)) := (h.congr rfl rfl rfl : Wf { st with breaks := [] }).emit rfl
    exact wf_switch (.cons (some t) b ft rest) _ _
      (compCases_wf (.cons (some t) b ft rest) x _ true _ ((wf_genTests x (.cons (some t) b ft rest) _ h0).emitJ fun _ => rfl))
  | .switch i (.cons none b ft (.cons t b' ft' rest)), x, st, h => by
    simp only [comp]
    have h0 : Wf (({ st with breaks := [] } : St).emit (.eval i x.d x.env)) := (h.congr rfl rfl rfl : Wf { st with breaks := [] }).emit rfl
    exact wf_switch (.cons none b ft (.cons t b' ft' rest)) _ _
      (compCases_wf (.cons none b ft (.cons t b' ft' rest)) x _ true _
        ((wf_genTests x (.cons none b ft (.cons t b' ft' rest)) _ h0).emitJ fun _ => rfl))
  | .jump k, x, st, h => wf_genJump x k st h
  | .ret i, x, st, h => wf_genReturn x _ _ (h.emit rfl)
  | .throw i, x, st, h => (h.emit (i := .eval i x.d x.env) rfl).emit rfl
  | .assert c k, x, st, h =>
    (((wf_genCond x c true st h).emit (i := .eval k x.d x.env) rfl).emit (i := .throw x.d) rfl).setAll _ (Nat.le_refl _)
  | .tryCatch b h', x, st, h => by
    simp only [comp]
    have h0 : Wf (({ st with breaks := [] } : St).emitJ (.catch x.d)) := (h.congr rfl rfl rfl : Wf { st with breaks := [] }).emitJ fun _ => rfl
    have h1 := ((((((comp_wf b { x with tries := (x.d, false) :: x.tries, d := x.d + 1 } _ h0).restoreCatch x.top).emitJ (i := .jmp) fun _ => rfl).updateKids
      x.d).set st.n (Nat.le_refl _)).restoreCatch x.top)
    have h2 := comp_wf h' { x with d := x.d + 1, env := x.d :: x.env } _ h1
    exact (h2.set _ (Nat.le_refl _)).congr rfl rfl rfl
  | .tryDefer b f, x, st, h => by
    simp only [comp]
    have hf : ∀ st, Wf st → Wf (comp { x with d := x.d + 1 } f st) := fun st h => comp_wf f _ st h
    have h0 : Wf ((({ st with breaks := [], returns := [] } : St).emit (.void x.d)).emitJ (.catch x.d)) :=
      ((h.congr rfl rfl rfl : Wf { st with breaks := [], returns := [] }).emit rfl).emitJ fun _ => rfl
    have h1 := comp_wf b { x with tries := (x.d, true) :: x.tries, d := x.d + 1 } _ h0
    refine Wf.set ?_ _ (Nat.le_refl _)
    refine wf_deferReturn _ _ _ hf _ _ ?_
    unfold deferCopies
    refine wf_deferCopy _ _ hf _ _ _ (wf_deferCopy _ _ hf _ _ _ (wf_deferCopy _ _ hf _ _ _ ?_))
    refine Wf.emit ?_ rfl
    refine Wf.emitJ ?_ fun _ => rfl
    refine hf _ (Wf.restoreCatch (Wf.set (Wf.updateKids ?_ _) _ (Nat.le_refl _)) _)
    exact h1.congr rfl rfl rfl

theorem compCases_wf : (cs : Cases) → (x : Ctx) → (es : List (Option Nat)) → (first : Bool) → (st : St) → Wf st →
    Wf (compCases x cs es first st).1
  | .nil, x, es, first, st, h => h
  | .cons t b ft rest, x, es, first, st, h => by
    simp only [compCases]
    have h1 : Wf (if first then (st.setO es.head?.join) else (st.setO es.head?.join).finishFall) := by
      split
      · exact h.setO _
      · exact (h.setO _).finishFall
    have h2 := comp_wf b x _ h1
    split
    · exact compCases_wf rest x _ false _ h2
    · exact compCases_wf rest x _ false _ (h2.emitJ fun _ => rfl)
end

theorem compFun_wf (opt : Bool) (b : Stmt) : Wf (comp { opt := opt } b {}) :=
  comp_wf b _ _ ⟨fun _ h => (List.not_mem_nil h).elim, rfl⟩

end Verif.Ctl
