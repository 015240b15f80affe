import Verif.Ec.Congr

/- Which registers are held before and after, and pieces of code which are used in
   several places. -/

namespace Verif.Ec

variable {V W : Type} {S : Sem V W} {cx : Cx}

theorem upd_ap {α : Type} (f : Nat → α) (k : Nat) (x : α) (j : Nat) : upd f k x j = if j = k then x else f j := rfl

theorem freeReg_ap (r : Nat) (t : Tmps) (j : Nat) :
    freeReg cx r t j = if j = r ∧ cx.vars r = false then false else t j := by
  unfold freeReg; split <;> grind [upd]

theorem freeNot_ap (r s : Nat) (t : Tmps) (j : Nat) :
    freeNot cx r s t j = if s ≠ r ∧ j = s ∧ cx.vars s = false then false else t j := by
  unfold freeNot; grind [freeReg_ap]

theorem hold_ap (t : Tmps) (k n j : Nat) : hold t k n j = (t j || (k ≤ j && j < k + n)) := rfl

grind_pattern upd_ap => upd f k x j
grind_pattern freeReg_ap => freeReg cx r t j
grind_pattern freeNot_ap => freeNot cx r s t j
grind_pattern hold_ap => hold t k n j

theorem genReg_ok {t : Tmps} {k : Nat} {t' : Tmps} (h : genReg cx t = some (k, t')) :
    cx.vars k = false ∧ t k = false ∧ ∀ j, t' j = if j = k then true else t j := by
  unfold genReg at h
  simp only [Option.map_eq_some_iff, Prod.mk.injEq] at h
  obtain ⟨j, h1, rfl, rfl⟩ := h
  have := List.find?_some h1
  simp only [Cx.free, Bool.and_eq_true, Bool.not_eq_true'] at this
  exact ⟨this.1, this.2, fun _ => rfl⟩

theorem genRange_ok {t : Tmps} {n k : Nat} {t' : Tmps} (h : genRange cx n t = some (k, t')) :
    (∀ j, k ≤ j → j < k + n → cx.vars j = false ∧ t j = false) ∧ ∀ j, t' j = (t j || (k ≤ j && j < k + n)) := by
  unfold genRange at h
  simp only [Option.map_eq_some_iff, Prod.mk.injEq] at h
  obtain ⟨i, h1, rfl, rfl⟩ := h
  have := List.find?_some h1
  simp only [List.all_eq_true, List.mem_range, Cx.free, Bool.and_eq_true, Bool.not_eq_true'] at this
  refine ⟨fun j h2 h3 => ?_, fun _ => rfl⟩
  have := this (j - i) (by omega)
  rwa [show i + (j - i) = j by omega] at this

theorem take_ok {dest : Option Nat} {t : Tmps} {k : Nat} {t' : Tmps} (h : take cx dest t = some (k, t')) :
    (dest = some k ∧ ∀ j, t' j = t j) ∨ (dest = none ∧ cx.vars k = false ∧ t k = false ∧ ∀ j, t' j = if j = k then true else t j) := by
  unfold take at h
  split at h
  · grind
  · exact .inr ⟨rfl, genReg_ok h⟩

theorem destReg_ok {dest : Option Nat} {src : Nat} {t : Tmps} {k : Nat} {t' : Tmps}
    (h : destReg cx dest src t = some (k, t')) :
    (dest = some k ∧ (∀ j, t' j = t j) ∧ (cx.vars src = true → src ≠ k)) ∨ (dest = none ∧ k = src ∧ (∀ j, t' j = t j) ∧ cx.vars src = false) ∨
    (cx.vars src = true ∧ (dest = some src ∨ dest = none) ∧ cx.vars k = false ∧ t k = false ∧ ∀ j, t' j = if j = k then true else t j) := by
  unfold destReg at h
  split at h
  · have := genReg_ok h; grind
  · split at h <;> grind

theorem reuse_ok {dest : Option Nat} {l : List Nat} {t : Tmps} {k : Nat} {t' : Tmps} (h : reuse cx dest l t = some (k, t')) :
    (dest = some k ∧ ∀ j, t' j = t j) ∨ (dest = none ∧ cx.vars k = false ∧ k ∈ l ∧ ∀ j, t' j = t j) ∨
    (dest = none ∧ (∀ r ∈ l, cx.vars r = true) ∧ cx.vars k = false ∧ t k = false ∧ ∀ j, t' j = if j = k then true else t j) := by
  unfold reuse at h
  split at h
  · grind
  · split at h
    · rename_i r hr
      have h1 := List.find?_some hr
      have h2 := List.mem_of_find?_eq_some hr
      grind
    · rename_i hr
      have h1 := List.find?_eq_none.mp hr
      have := genReg_ok h
      grind

abbrev held (cx : Cx) (t : Tmps) (k : Nat) : Prop := cx.vars k = true ∨ t k = true

/-- Registers in use keep their values. -/
def keeps (cx : Cx) (t : Tmps) (dest : Option Nat) (ρ ρ' : Regs V) : Prop :=
  ∀ k, held cx t k → dest ≠ some k → ρ' k = ρ k

/-- The same when something is thrown; the wanted register too if it belongs to
    a variable and `late`. -/
def keepsE (cx : Cx) (t : Tmps) (dest : Option Nat) (late : Bool) (ρ ρ' : Regs V) : Prop :=
  ∀ k, held cx t k → dest ≠ some k ∨ late = true ∧ cx.vars k = true → ρ' k = ρ k

/-- Where a result is and what is held then. -/
structure Shape (cx : Cx) (t : Tmps) (dest : Option Nat) (r : Nat) (t' : Tmps) : Prop where
  reg : dest = some r ∨ cx.vars r = true ∨ t r = false
  tmp : ∀ d, dest = some d → cx.vars d = false → dest = some r ∨ cx.vars r = true
  tmps : ∀ j, t' j = true ↔ t j = true ∨ (j = r ∧ cx.vars r = false ∧ dest ≠ some r)

def Wants (cx : Cx) (dest : Option Nat) (t : Tmps) : Prop := ∀ d, dest = some d → held cx t d ∧ (cx.vars d = true → d ≠ cx.this)

theorem getProp_ok {opt : Bool} {d o : Nat} {k : Key} {t : Tmps} {c : Code} {t' : Tmps}
    (h : getProp cx opt d o k t = some (c, t')) (hd : held cx t d) :
    (∀ j, t' j = t j) ∧ ∀ (ρ : Regs V) (w : W) (v : V), ρ o = v → Sim S c ρ w (S.prim (.get opt) [v, keyVal S k] w)
      (fun v ρ' => ρ' d = v ∧ ∀ j, held cx t j → j ≠ d → ρ' j = ρ j)
      (fun ρ' => ∀ j, held cx t j → j ≠ d ∨ k.far = false → ρ' j = ρ j) := by
  unfold getProp at h
  split at h
  · split at h
    · simp only [Option.bind_eq_bind, Option.bind_eq_some_iff] at h
      obtain ⟨⟨p, t1⟩, h1, h2⟩ := h
      have h3 := genReg_ok h1
      cases h2
      refine ⟨by grind, fun ρ w v hv => Sim.load_seq (Sim.op ?_ ?_ ?_)⟩
      · simp only [List.map, Operand.val, keyVal]; grind
      · grind
      · grind
    · cases h
      refine ⟨by grind, fun ρ w v hv => Sim.load_seq (Sim.op ?_ ?_ ?_)⟩
      · simp only [List.map, Operand.val, keyVal]; grind
      · grind
      · grind
  · cases h
    refine ⟨by grind, fun ρ w v hv => Sim.op ?_ ?_ ?_⟩
    · simp only [List.map, Operand.val, keyVal]; grind
    · grind
    · grind

theorem hasProp_ok {deep : Bool} {d o : Nat} {k : Key} {t : Tmps} {c : Code} {t' : Tmps}
    (h : hasProp cx deep d o k t = some (c, t')) (hd : held cx t d) :
    (∀ j, t' j = t j) ∧ ∀ (ρ : Regs V) (w : W) (v : V), ρ o = v → Sim S c ρ w (S.prim (.has deep) [v, keyVal S k] w)
      (fun v ρ' => ρ' d = v ∧ ∀ j, held cx t j → j ≠ d → ρ' j = ρ j)
      (fun ρ' => ∀ j, held cx t j → j ≠ d ∨ k.far = false → ρ' j = ρ j) := by
  unfold hasProp at h
  split at h
  · split at h
    · simp only [Option.bind_eq_bind, Option.bind_eq_some_iff] at h
      obtain ⟨⟨p, t1⟩, h1, h2⟩ := h
      have h3 := genReg_ok h1
      cases h2
      refine ⟨by grind, fun ρ w v hv => Sim.load_seq (Sim.op ?_ ?_ ?_)⟩
      · simp only [List.map, Operand.val, keyVal]; grind
      · grind
      · grind
    · cases h
      refine ⟨by grind, fun ρ w v hv => Sim.load_seq (Sim.op ?_ ?_ ?_)⟩
      · simp only [List.map, Operand.val, keyVal]; grind
      · grind
      · grind
  · cases h
    refine ⟨by grind, fun ρ w v hv => Sim.op ?_ ?_ ?_⟩
    · simp only [List.map, Operand.val, keyVal]; grind
    · grind
    · grind

theorem setProp_ok {o s : Nat} {k : Key} {t : Tmps} {c : Code} {t' : Tmps}
    (h : setProp cx o k s t = some (c, t')) (ho : held cx t o) (hs : held cx t s) :
    (∀ j, t' j = t j) ∧ ∀ (ρ : Regs V) (w : W) (v u : V), ρ o = v → ρ s = u →
      Sim S c ρ w (S.prim .set [v, keyVal S k, u] w) (fun _ ρ' => ∀ j, held cx t j → ρ' j = ρ j)
      (fun ρ' => ∀ j, held cx t j → ρ' j = ρ j) := by
  unfold setProp at h
  split at h
  · simp only [Option.bind_eq_bind, Option.bind_eq_some_iff] at h
    obtain ⟨⟨p, t1⟩, h1, h2⟩ := h
    have h3 := genReg_ok h1
    cases h2
    refine ⟨by grind, fun ρ w v u hv hu => Sim.load_seq (Sim.eff ?_ ?_ ?_)⟩
    · simp only [List.map, Operand.val, keyVal]; grind
    · grind
    · grind
  · cases h
    refine ⟨by grind, fun ρ w v u hv hu => Sim.eff ?_ ?_ ?_⟩
    · simp only [List.map, Operand.val, keyVal]; grind
    · grind
    · grind

end Verif.Ec
