import Verif.Ctl.Wf

/-
C61: jumps which the compiler generates for statements.

In the code of a function, each jump instruction gets its target exactly once, and the target is an instruction of the function.  Hence
the assertions in `set_jump_target` (core/kos_compiler.c:1043) and `update_jumps` (1191) hold, and the machine never runs out of the
code, no matter what values expressions have and which of them throw.
-/
namespace Verif.Ctl

/-- `break` and `continue` only in loops, `break` also in `switch`, `fallthrough` only in a case with another one after it. -/
def WellPlaced (b : Stmt) : Prop := Placed (fun _ => false) b

/-- Targets given to the entry `e`, in order. -/
def targets (st : St) (e : Nat) : List Nat := (st.log.filter fun p => p.1 == e).map (·.2)

theorem targets_length (st : St) (e : Nat) : (targets st e).length = (st.log.map (·.1)).count e := by
  simp only [targets, List.length_map, ← List.countP_eq_length_filter, List.count, List.countP_map]
  rfl

/-- **C61**: each jump instruction has an entry of its own, which gets one target, inside of the code. -/
theorem C61_targets (opt : Bool) (b : Stmt) (hb : WellPlaced b) :
    ((compFun opt b).code.filterMap Instr.entry).Nodup ∧
    ∀ i ∈ (compFun opt b).code, ∀ e, i.entry = some e → ∃ t, targets (compFun opt b) e = [t] ∧ (compFun opt b).prog.tgt e = some t ∧
      t < (compFun opt b).code.length := by
  have hw := compFun_wf opt b
  have hc : (compFun opt b).code.filterMap Instr.entry = List.range (compFun opt b).n := by
    have := hw.code
    simp only [compFun, St.emit, List.filterMap_append, this]
    simp [Instr.entry]
  refine ⟨by rw [hc]; exact List.nodup_range, fun i hi e he => ?_⟩
  have he : e ∈ (compFun opt b).code.filterMap Instr.entry := List.mem_filterMap.2 ⟨i, hi, he⟩
  rw [hc, List.mem_range] at he
  have h1 := compFun_count opt b hb e
  rw [if_pos he, ← targets_length] at h1
  obtain ⟨t, ht⟩ := List.length_eq_one_iff.1 h1
  have hm : (e, t) ∈ (compFun opt b).log := by
    have : t ∈ targets (compFun opt b) e := by rw [ht]; simp
    simp only [targets, List.mem_map, List.mem_filter, beq_iff_eq] at this
    obtain ⟨⟨e', t'⟩, ⟨h, rfl⟩, rfl⟩ := this
    exact h
  refine ⟨t, ht, compFun_tgt opt b hb hm, ?_⟩
  have := hw.tgt _ hm
  simp only [St.pc] at this
  simp only [compFun, St.emit, List.length_append, List.length_cons, List.length_nil]
  omega

/-- At the end of a function nothing is left open: no `break`, `continue` or `fallthrough`, no return and no CATCH. -/
theorem C61_closed (opt : Bool) (b : Stmt) (hb : WellPlaced b) :
    (compFun opt b).breaks = [] ∧ (compFun opt b).returns = [] ∧ (compFun opt b).kids = [] := compFun_closed opt b hb

variable {σ V : Type}

/-- The program counter and the exception handler are inside of the code. -/
def Inside (P : Prog) (c : Cfg σ V) : Prop := c.pc < P.code.length ∧ ∀ h, c.hnd = some h → h.1 < P.code.length

theorem inside_raise (S : Sem σ V) (P : Prog) (v : V) (c : Cfg σ V) (s : σ) (h : Inside P c) :
    (∀ c', raise S v c s = .run c' → Inside P c') ∧ raise S v c s ≠ .stuck := by
  unfold raise
  cases hh : c.hnd with
  | none => exact ⟨fun c' h => (Next.noConfusion rfl rfl (heq_of_eq h)), by simp⟩
  | some p =>
    refine ⟨fun c' hc => ?_, by simp⟩
    simp only [Next.run.injEq] at hc
    subst hc
    exact ⟨h.2 p hh, fun _ h => by cases h⟩

/-- One step stays inside of the code, if all targets are inside and the code ends with RETURN. -/
theorem inside_step (S : Sem σ V) (P : Prog)
    (ht : ∀ i ∈ P.code, ∀ e, i.entry = some e → ∃ t, P.tgt e = some t ∧ t < P.code.length)
    (hr : ∃ r, P.code.getLast? = some (.ret r)) (c : Cfg σ V) (h : Inside P c) :
    (∀ c', step S P c = .run c' → Inside P c') ∧ step S P c ≠ .stuck := by
  obtain ⟨r, hr⟩ := hr
  obtain ⟨ins, hi⟩ : ∃ ins, P.code[c.pc]? = some ins := ⟨_, List.getElem?_eq_getElem h.1⟩
  have hm : ins ∈ P.code := List.mem_of_getElem? hi
  have hlast : (∀ r, ins ≠ .ret r) → c.pc + 1 < P.code.length := by
    intro hne
    rcases Nat.lt_or_ge (c.pc + 1) P.code.length with hlt | hge
    · exact hlt
    · have hpc : c.pc = P.code.length - 1 := by have := h.1; omega
      rw [List.getLast?_eq_getElem?, ← hpc, hi] at hr
      exact absurd (Option.some.inj hr) (hne r)
  have hg : ∀ e, ins.entry = some e → ∀ c' : Cfg σ V, c'.hnd = c.hnd →
      (∀ c'', goto P e c' = .run c'' → Inside P c'') ∧ goto P e c' ≠ .stuck := by
    intro e he c' hh
    obtain ⟨t, h1, h2⟩ := ht _ hm e he
    simp only [goto, h1]
    refine ⟨fun c'' hc => ?_, by simp⟩
    simp only [Next.run.injEq] at hc
    subst hc
    exact ⟨h2, by simpa [hh] using h.2⟩
  unfold step
  rw [hi]
  cases ins with
  | eval i dst env =>
    simp only
    split
    · have := hlast (by simp)
      refine ⟨fun c' hc => ?_, by simp⟩
      simp only [Next.run.injEq] at hc
      subst hc
      exact ⟨this, h.2⟩
    · exact inside_raise S P _ c _ h
  | jmp e => exact hg e rfl c rfl
  | jcond w r e =>
    simp only
    split
    · exact hg e rfl c rfl
    · have := hlast (by simp)
      refine ⟨fun c' hc => ?_, by simp⟩
      simp only [Next.run.injEq] at hc
      subst hc
      exact ⟨this, h.2⟩
  | «catch» r e =>
    obtain ⟨t, h1, h2⟩ := ht _ hm e rfl
    have := hlast (by simp)
    simp only [h1]
    refine ⟨fun c' hc => ?_, by simp⟩
    simp only [Next.run.injEq] at hc
    subst hc
    exact ⟨this, fun p hp => by simp only [Option.some.injEq] at hp; subst hp; exact h2⟩
  | cancel =>
    have := hlast (by simp)
    refine ⟨fun c' hc => ?_, by simp⟩
    simp only [Next.run.injEq] at hc
    subst hc
    exact ⟨this, fun p hp => by cases hp⟩
  | throw r => exact inside_raise S P _ c _ h
  | ret r => exact ⟨fun c' hc => (Next.noConfusion rfl rfl (heq_of_eq hc)), by simp⟩
  | move dst src =>
    have := hlast (by simp)
    refine ⟨fun c' hc => ?_, by simp⟩
    simp only [Next.run.injEq] at hc
    subst hc
    exact ⟨this, h.2⟩
  | void dst =>
    have := hlast (by simp)
    refine ⟨fun c' hc => ?_, by simp⟩
    simp only [Next.run.injEq] at hc
    subst hc
    exact ⟨this, h.2⟩
  | next j env e =>
    simp only
    split
    · exact hg e rfl _ rfl
    · have := hlast (by simp)
      refine ⟨fun c' hc => ?_, by simp⟩
      simp only [Next.run.injEq] at hc
      subst hc
      exact ⟨this, h.2⟩
    · exact inside_raise S P _ c _ h
  | case i r dst env =>
    simp only
    split
    · have := hlast (by simp)
      refine ⟨fun c' hc => ?_, by simp⟩
      simp only [Next.run.injEq] at hc
      subst hc
      exact ⟨this, h.2⟩
    · exact inside_raise S P _ c _ h

theorem inside_reach (S : Sem σ V) (P : Prog)
    (ht : ∀ i ∈ P.code, ∀ e, i.entry = some e → ∃ t, P.tgt e = some t ∧ t < P.code.length)
    (hr : ∃ r, P.code.getLast? = some (.ret r)) {k : Nat} {c c' : Cfg σ V} (h : Inside P c) (hk : Reach S P k c c') : Inside P c' := by
  induction hk with
  | refl => exact h
  | cons hs _ ih => exact ih ((inside_step S P ht hr _ h).1 _ hs)

/-- **C61**: the machine which runs the code of a function never gets to a place without an instruction, and never takes a jump whose
target was not set. -/
theorem C61_never_stuck (S : Sem σ V) (opt : Bool) (b : Stmt) (hb : WellPlaced b) (regs : Nat → V) (s : σ) (k : Nat) (c : Cfg σ V)
    (h : Reach S (compFun opt b).prog k ⟨0, regs, none, s⟩ c) : c.pc < (compFun opt b).code.length ∧ step S (compFun opt b).prog c ≠ .stuck := by
  have ht : ∀ i ∈ (compFun opt b).prog.code, ∀ e, i.entry = some e →
      ∃ t, (compFun opt b).prog.tgt e = some t ∧ t < (compFun opt b).prog.code.length := by
    intro i hi e he
    obtain ⟨t, -, h1, h2⟩ := (C61_targets opt b hb).2 i hi e he
    exact ⟨t, h1, h2⟩
  have hr : ∃ r, (compFun opt b).prog.code.getLast? = some (.ret r) := ⟨0, by simp [compFun, St.emit, St.prog]⟩
  have h0 : Inside (compFun opt b).prog (⟨0, regs, none, s⟩ : Cfg σ V) :=
    ⟨by simp [compFun, St.emit, St.prog], fun _ h => by cases h⟩
  have hi := inside_reach S _ ht hr h0 h
  exact ⟨hi.1, (inside_step S _ ht hr c hi).2⟩

/-- Without the parser's check a `break` would be left open. -/
theorem C61_needs_placement : (compFun true (.jump .brk)).breaks ≠ [] ∧ targets (compFun true (.jump .brk)) 0 = [] := by decide

/-! ### Examples -/

/-- `while a { try { if b { break } return c } catch const e { switch d { case 5 { fallthrough } default { continue } } } }` -/
def c61Ex : Stmt := .while (.leaf 0 none) (.tryCatch (.seq (.ite (.leaf 1 none) (.jump .brk)) (.ret 2))
  (.switch 3 (.cons (some 4) (.jump .fall) false (.cons none (.jump .cont) false .nil))))

example : WellPlaced c61Ex := by simp [c61Ex, WellPlaced, Placed, PlacedCases, loopAllow, caseAllow, Cases.isNil]

example : (compFun true c61Ex).code.filterMap Instr.entry = List.range 12 := by decide +kernel

end Verif.Ctl
