import Verif.Call.Bind

/-! Closed form of what the compiler decides about parameters, and of the registers after a call. -/
namespace Verif.Call

variable {V : Type}

theorem lastUsed_append (i m : Nat) (ps qs : List Param) : lastUsed i (ps ++ qs) m = lastUsed (i + ps.length) qs (lastUsed i ps m) := by
  induction ps generalizing i m with
  | nil => rfl
  | cons p ps ih => simp only [List.cons_append, lastUsed, ih, List.length_cons]; congr 1; omega

theorem lastUsed_le (i m : Nat) (ps : List Param) (h : m ≤ i) : lastUsed i ps m ≤ i + ps.length ∧ m ≤ lastUsed i ps m := by
  induction ps generalizing i m with
  | nil => simp [lastUsed]; omega
  | cons p ps ih =>
    simp only [lastUsed, List.length_cons]
    split
    · have := ih (i + 1) (i + 1) (by omega); omega
    · have := ih (i + 1) m (by omega); omega

/-- A used parameter comes before the end of the used ones. -/
theorem lt_lastUsed (ps : List Param) (i m : Nat) (h : m ≤ i) (j : Nat) (p : Param) (hj : ps[j]? = some p) (hu : p.used = true) :
    i + j < lastUsed i ps m := by
  induction ps generalizing i m j with
  | nil => simp at hj
  | cons q ps ih =>
    simp only [lastUsed]
    cases j with
    | zero =>
      simp only [List.getElem?_cons_zero, Option.some.injEq] at hj
      subst hj
      simp only [hu, if_true]
      have := (lastUsed_le (i + 1) (i + 1) ps (by omega)).2
      omega
    | succ j =>
      simp only [List.getElem?_cons_succ] at hj
      have : (if q.used then i + 1 else m) ≤ i + 1 := by split <;> omega
      have := ih (i + 1) _ this j hj
      omega

theorem length_params (f : Decl) : f.params.length = f.req.length + f.opt.length := by simp [Decl.params]

theorem numArgs_le (f : Decl) : f.numArgs ≤ f.params.length := by
  unfold Decl.numArgs
  split
  · exact Nat.le_refl _
  · have := (lastUsed_le 0 0 f.params (by omega)).1; omega

/-- Used parameters are among those which are kept. -/
theorem used_lt (f : Decl) (i : Nat) (p : Param) (h : f.params[i]? = some p) (hu : p.used = true) : i < f.numArgs := by
  unfold Decl.numArgs
  split
  · exact (List.getElem?_eq_some_iff.mp h).1
  · have := lt_lastUsed f.params 0 0 (by omega) i p h hu; omega

theorem params_dflt (f : Decl) (i : Nat) (p : Param) (h : f.params[i]? = some p) : p.dflt = decide (f.req.length ≤ i) := by
  unfold Decl.params at h
  by_cases hi : i < f.req.length
  · rw [List.getElem?_append_left (by simpa using hi), List.getElem?_map] at h
    obtain ⟨b, -, rfl⟩ := Option.map_eq_some_iff.mp h
    simp; omega
  · rw [List.getElem?_append_right (by simpa using hi), List.getElem?_map] at h
    obtain ⟨b, -, rfl⟩ := Option.map_eq_some_iff.mp h
    simp; omega

/-- The number of parameters in registers. -/
def Decl.numRegArgs (f : Decl) : Nat := if f.haveRest then 31 else f.numArgs

/-- State of the loop after the parameters `pre`. -/
structure Inv (f : Decl) (pre : List Param) (g : Gen) : Prop where
  next    : g.next = f.indep + min pre.length f.numRegArgs
  regs    : g.regs = (List.range (min pre.length f.numRegArgs)).map (f.indep + ·)
  minArgs : g.minArgs = min (min pre.length f.numArgs) f.req.length
  numDecl : g.numDecl = pre.length - f.req.length
  numUsed : g.numUsed = (if f.haveEll then pre.length else lastUsed 0 pre 0) - f.req.length
  rest    : g.rest = (f.haveRest && decide (31 < pre.length))

theorem genParam_inv (f : Decl) (pre : List Param) (p : Param) (g : Gen) (h : Inv f pre g) (hd : p.dflt = decide (f.req.length ≤ pre.length)) :
    Inv f (pre ++ [p]) (genParam f pre.length p g) := by
  have hl : lastUsed 0 (pre ++ [p]) 0 = if p.used then pre.length + 1 else lastUsed 0 pre 0 := by
    rw [lastUsed_append]; simp [lastUsed]
  have hle := (lastUsed_le 0 0 pre (by omega)).1
  have h31 : f.haveRest = true ↔ 32 < f.numArgs := by simp [Decl.haveRest]
  have hR : f.numRegArgs ≤ f.numArgs := by
    unfold Decl.numRegArgs; split
    · rename_i h; have := h31.mp h; omega
    · omega
  -- registers
  have hin : pre.length < f.numArgs → (f.inReg pre.length = true ↔ pre.length < f.numRegArgs) := by
    intro hlt
    unfold Decl.inReg Decl.numRegArgs
    cases f.haveRest <;> simp [hlt]
  obtain ⟨h1, h2, h3, h4, h5, h6⟩ := h
  by_cases hdf : p.dflt = true
  · have hreq : f.req.length ≤ pre.length := by simpa [hdf] using hd.symm
    by_cases hlt : pre.length < f.numArgs
    · by_cases hreg : f.inReg pre.length = true
      · have hlt2 := (hin hlt).mp hreg
        have e : genParam f pre.length p g = { g with numDecl := g.numDecl + 1, numUsed := if p.used || f.haveEll then g.numDecl + 1 else g.numUsed, regs := g.regs ++ [g.next], next := g.next + 1 } := by
          simp [genParam, hdf, hlt, hreg]
        rw [e]
        refine ⟨?_, ?_, ?_, ?_, ?_, ?_⟩
        · simp only [List.length_append, List.length_cons, List.length_nil]; omega
        · simp only [List.length_append, List.length_cons, List.length_nil]
          have e1 : min pre.length f.numRegArgs = pre.length := by omega
          have e2 : min (pre.length + (0 + 1)) f.numRegArgs = pre.length + 1 := by omega
          rw [h2, h1, e1, e2, List.range_succ, List.map_append]; rfl
        · simp only [List.length_append, List.length_cons, List.length_nil]; omega
        · simp only [List.length_append, List.length_cons, List.length_nil]; omega
        · simp only [List.length_append, List.length_cons, List.length_nil, hl]
          cases hu : p.used <;> cases he : f.haveEll <;> simp [he] at h5 ⊢ <;> omega
        · have : f.haveRest = true → pre.length < 31 := fun hr => by simpa [Decl.numRegArgs, hr] using hlt2
          simp only [List.length_append, List.length_cons, List.length_nil, h6]
          cases hr : f.haveRest
          · rfl
          · have := this hr; simp; omega
      · have e : genParam f pre.length p g = { g with numDecl := g.numDecl + 1, numUsed := if p.used || f.haveEll then g.numDecl + 1 else g.numUsed, rest := true } := by
          simp [genParam, hdf, hlt, hreg]
        have hlt2 : ¬ pre.length < f.numRegArgs := fun h => hreg ((hin hlt).mpr h)
        have hr : f.haveRest = true := by cases hr : f.haveRest <;> simp [Decl.inReg, hr] at hreg ⊢
        have h31' : 31 ≤ pre.length := by simpa [Decl.numRegArgs, hr] using hlt2
        rw [e]
        refine ⟨?_, ?_, ?_, ?_, ?_, ?_⟩ <;> simp only [List.length_append, List.length_cons, List.length_nil]
        · omega
        · rw [h2]; congr 2; omega
        · omega
        · omega
        · rw [hl]
          cases hu : p.used <;> cases he : f.haveEll <;> simp [he] at h5 ⊢ <;> omega
        · simp [hr]; omega
    · have e : genParam f pre.length p g = { g with numDecl := g.numDecl + 1, numUsed := if p.used || f.haveEll then g.numDecl + 1 else g.numUsed } := by
        simp [genParam, hdf, hlt]
      rw [e]
      refine ⟨?_, ?_, ?_, ?_, ?_, ?_⟩ <;> simp only [List.length_append, List.length_cons, List.length_nil]
      · omega
      · rw [h2]; congr 2; omega
      · omega
      · omega
      · rw [hl]
        cases hu : p.used <;> cases he : f.haveEll <;> simp [he] at h5 ⊢ <;> omega
      · rw [h6]
        cases hr : f.haveRest
        · rfl
        · have := h31.mp hr; simp; omega
  · have hdf : p.dflt = false := by simpa using hdf
    have hreq : pre.length < f.req.length := by simpa [hdf] using hd.symm
    have hzero : (if f.haveEll then pre.length + (0 + 1) else if p.used then pre.length + 1 else lastUsed 0 pre 0) - f.req.length = 0 := by
      split <;> (try split) <;> omega
    have hzero' : g.numUsed = 0 := by rw [h5]; split <;> omega
    by_cases hlt : pre.length < f.numArgs
    · by_cases hreg : f.inReg pre.length = true
      · have hlt2 := (hin hlt).mp hreg
        have e : genParam f pre.length p g = { g with minArgs := g.minArgs + 1, regs := g.regs ++ [g.next], next := g.next + 1 } := by
          simp [genParam, hdf, hlt, hreg]
        rw [e]
        refine ⟨?_, ?_, ?_, ?_, ?_, ?_⟩ <;> simp only [List.length_append, List.length_cons, List.length_nil]
        · omega
        · have e1 : min pre.length f.numRegArgs = pre.length := by omega
          have e2 : min (pre.length + (0 + 1)) f.numRegArgs = pre.length + 1 := by omega
          rw [h2, h1, e1, e2, List.range_succ, List.map_append]; rfl
        · omega
        · omega
        · rw [hl, hzero, hzero']
        · have : f.haveRest = true → pre.length < 31 := fun hr => by simpa [Decl.numRegArgs, hr] using hlt2
          rw [h6]
          cases hr : f.haveRest
          · rfl
          · have := this hr; simp; omega
      · have e : genParam f pre.length p g = { g with minArgs := g.minArgs + 1, rest := true } := by
          simp [genParam, hdf, hlt, hreg]
        have hlt2 : ¬ pre.length < f.numRegArgs := fun h => hreg ((hin hlt).mpr h)
        have hr : f.haveRest = true := by cases hr : f.haveRest <;> simp [Decl.inReg, hr] at hreg ⊢
        have h31' : 31 ≤ pre.length := by simpa [Decl.numRegArgs, hr] using hlt2
        rw [e]
        refine ⟨?_, ?_, ?_, ?_, ?_, ?_⟩ <;> simp only [List.length_append, List.length_cons, List.length_nil]
        · omega
        · rw [h2]; congr 2; omega
        · omega
        · omega
        · rw [hl, hzero, hzero']
        · simp [hr]; omega
    · have e : genParam f pre.length p g = g := by
        simp [genParam, hdf, hlt]
      rw [e]
      refine ⟨?_, ?_, ?_, ?_, ?_, ?_⟩ <;> simp only [List.length_append, List.length_cons, List.length_nil]
      · omega
      · rw [h2]; congr 2; omega
      · omega
      · omega
      · rw [hl, hzero, hzero']
      · rw [h6]
        cases hr : f.haveRest
        · rfl
        · have := h31.mp hr; simp; omega

theorem genParams_inv (f : Decl) : ∀ (ps pre : List Param) (g : Gen), f.params = pre ++ ps → Inv f pre g → Inv f f.params (genParams f pre.length ps g)
  | [], pre, g, hp, h => by rw [hp]; simpa [genParams] using h
  | p :: ps, pre, g, hp, h => by
    have hd := params_dflt f pre.length p (by rw [hp]; simp)
    have := genParams_inv f ps (pre ++ [p]) (genParam f pre.length p g) (by rw [hp]; simp) (genParam_inv f pre p g h hd)
    simpa [genParams] using this

/-- What the loop over all parameters finds. -/
theorem genParams_all (f : Decl) : Inv f f.params (genParams f 0 f.params { next := f.indep }) :=
  genParams_inv f f.params [] _ rfl ⟨by simp, by simp, by simp, by simp, by simp [lastUsed], by simp⟩

theorem numUsed_eq (f : Decl) (g : Gen) (h : Inv f f.params g) : g.numUsed = f.numArgs - f.req.length ∧ g.minArgs = min f.numArgs f.req.length ∧
    g.rest = f.haveRest ∧ g.next = f.indep + f.numRegArgs ∧ g.regs = (List.range f.numRegArgs).map (f.indep + ·) ∧ g.numDecl = f.opt.length := by
  have hn := numArgs_le f
  have hl := length_params f
  have h31 : f.haveRest = true ↔ 32 < f.numArgs := by simp [Decl.haveRest]
  have hR : f.numRegArgs ≤ f.numArgs := by
    unfold Decl.numRegArgs; split
    · rename_i h; have := h31.mp h; omega
    · omega
  have e : min f.params.length f.numRegArgs = f.numRegArgs := by omega
  refine ⟨?_, ?_, ?_, ?_, ?_, ?_⟩
  · rw [h.numUsed]; simp only [Decl.numArgs]
  · rw [h.minArgs]; omega
  · rw [h.rest]
    cases hr : f.haveRest
    · rfl
    · have := h31.mp hr; simp; omega
  · rw [h.next, e]
  · rw [h.regs, e]
  · rw [h.numDecl]; omega

/-- Where the registers after those of arguments start. -/
def Decl.thisAt (f : Decl) : Nat := f.indep + f.numRegArgs + f.haveRest.toNat

def Decl.ellAt (f : Decl) : Nat := f.thisAt + f.this.toNat

def Decl.bindAt (f : Decl) : Nat := match f.ell with
  | some ⟨true, none⟩ => f.ellAt + 1
  | _ => f.ellAt

def Decl.ellReg (f : Decl) : Nat := match f.ell with
  | some ⟨true, some r⟩ => r
  | some ⟨true, none⟩ => f.ellAt
  | _ => noReg

/-- What the compiler decides, in closed form. -/
theorem compile_eq (f : Decl) (extra : Nat) (c : Comp) (h : compile f extra = some c) :
    f.params.length ≤ 255 ∧ c.numRegs = f.bindAt + f.binds + extra ∧ c.numRegs ≤ 255 ∧
    c.minArgs = min f.numArgs f.req.length ∧ c.numDef = f.numArgs - f.req.length ∧ c.argsReg = (if f.numArgs = 0 then noReg else f.indep) ∧
    c.restReg = (if f.haveRest then f.indep + 31 else noReg) ∧ c.ellReg = f.ellReg ∧
    c.thisReg = (if f.this then f.thisAt else noReg) ∧ c.bindReg = (if f.binds = 0 then noReg else f.bindAt) ∧
    c.regs = (List.range f.numRegArgs).map (f.indep + ·) := by
  unfold compile at h
  split at h
  · cases h
  rename_i hp
  obtain ⟨g1, g2, g3, g4, g5, g6⟩ := numUsed_eq f _ (genParams_all f)
  have hn := numArgs_le f
  have hl := length_params f
  simp only [g1, g2, g3, g4, g5, g6] at h
  have e1 : (if f.haveRest = true then f.indep + f.numRegArgs + 1 else f.indep + f.numRegArgs) = f.thisAt := by
    unfold Decl.thisAt; cases f.haveRest <;> rfl
  have e2 : (if f.this = true then f.thisAt + 1 else f.thisAt) = f.ellAt := by
    unfold Decl.ellAt; cases f.this <;> rfl
  rw [e1, e2] at h
  have e4 : (if f.opt.length = 0 then f.numArgs - f.req.length else f.numArgs - min f.numArgs f.req.length) = f.numArgs - f.req.length := by
    split <;> omega
  have e5 : min f.numArgs f.req.length + (f.numArgs - f.req.length) = f.numArgs := by omega
  have e6 : f.haveRest = true → f.numRegArgs = 31 := fun h => by simp [Decl.numRegArgs, h]
  rcases hell : f.ell with _ | ⟨_ | _, _ | r⟩ <;> simp only [hell, Decl.ellReg, Decl.bindAt] at h ⊢ <;> split at h <;>
    first
    | (cases h; done)
    | (rename_i hr
       simp only [Option.some.injEq] at h
       rw [← h]
       refine ⟨by omega, rfl, by simpa using hr, rfl, e4, by simp only [e5], ?_, rfl, rfl, rfl, rfl⟩
       cases hr : f.haveRest
       · rfl
       · rw [e6 hr])

end Verif.Call
