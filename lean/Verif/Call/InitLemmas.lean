import Verif.Call.BindLemmas

/-! Registers after a call. -/
namespace Verif.Call

variable {V : Type}

theorem put_some (regs : List (Cell V)) (r : Nat) (c : Cell V) (h : r < regs.length) :
    ∃ regs', put regs r c = some regs' ∧ regs'.length = regs.length ∧ ∀ k, regs'[k]? = if k = r then some c else regs[k]? := by
  refine ⟨regs.set r c, by simp [put, h], by simp, fun k => ?_⟩
  rw [List.getElem?_set]
  by_cases e : r = k
  · subst e; simp [h]
  · rw [if_neg e, if_neg (fun h => e h.symm)]

theorem move_some (regs : List (Cell V)) (r : Nat) (src : List V) (offs n : Nat) (h : r + n ≤ regs.length) (h' : offs + n ≤ src.length) :
    ∃ regs', move regs r src offs n = some regs' ∧ regs'.length = regs.length ∧
      ∀ k, regs'[k]? = if r ≤ k ∧ k < r + n then src[offs + (k - r)]?.map .val else regs[k]? := by
  refine ⟨_, by rw [move, if_pos ⟨h, h'⟩], by simp; omega, fun k => ?_⟩
  have l1 : (regs.take r).length = r := by simp; omega
  have l2 : (((src.drop offs).take n).map (Cell.val (V := V))).length = n := by simp; omega
  by_cases h1 : k < r
  · rw [if_neg (by omega), List.append_assoc, List.getElem?_append_left (by omega), List.getElem?_take, if_pos h1]
  · by_cases h2 : k < r + n
    · rw [if_pos ⟨by omega, h2⟩, List.append_assoc, List.getElem?_append_right (by omega), List.getElem?_append_left (by omega), l1,
        List.getElem?_map, List.getElem?_take, if_pos (by omega), List.getElem?_drop]
    · rw [if_neg (by omega), List.getElem?_append_right (by simp only [List.length_append]; omega), List.length_append, l1, l2, List.getElem?_drop]
      congr 1; omega

theorem sliceArgs_eq (args : List V) (b e : Nat) : sliceArgs args b e = (args.drop b).take (e - b) := by
  unfold sliceArgs
  split
  · split
    · rw [List.take_of_length_le (by simp), List.take_of_length_le (by simp; omega)]
    · rfl
  · rename_i h
    by_cases h1 : b < args.length
    · rw [show e - b = 0 by omega]; simp
    · rw [List.drop_eq_nil_of_le (by omega)]; simp

theorem slice_surplus (args : List V) (n : Nat) (h : args.length ≤ 0xFFFFFFFF) :
    (if n < args.length then sliceArgs args n 0xFFFFFFFF else []) = args.drop n := by
  split
  · rw [sliceArgs_eq, List.take_of_length_le (by simp; omega)]
  · rw [List.drop_eq_nil_of_le (by omega)]

/-- A function object made from a declaration. -/
structure Made (f : Decl) (extra : Nat) (fn : Func V) : Prop where
  comp     : compile f extra = some fn.opts
  defaults : fn.defaults.length = fn.opts.numDef
  closures : fn.closures.length = f.binds
  /-- the register of a captured ellipsis is one of those for independent variables -/
  ell      : ∀ r, f.ell = some ⟨true, some r⟩ → r < f.indep

theorem haveRest_iff (f : Decl) : f.haveRest = true ↔ 32 < f.numArgs := by simp [Decl.haveRest]

theorem numRegArgs_le (f : Decl) : f.numRegArgs ≤ f.numArgs := by
  unfold Decl.numRegArgs
  split
  · rename_i h; have := (haveRest_iff f).mp h; omega
  · omega

theorem ellReg_cases (f : Decl) : (f.haveEll = false ∧ f.ellReg = noReg ∧ f.bindAt = f.ellAt) ∨
    (f.haveEll = true ∧ f.ellReg = f.ellAt ∧ f.bindAt = f.ellAt + 1) ∨ (f.haveEll = true ∧ f.ell = some ⟨true, some f.ellReg⟩ ∧ f.bindAt = f.ellAt) := by
  unfold Decl.ellReg Decl.bindAt Decl.haveEll
  rcases f.ell with _ | ⟨_ | _, _ | r⟩ <;> simp

/-- All registers after `init_registers`. -/
theorem init_spec (f : Decl) (extra : Nat) (fn : Func V) (m : Made f extra fn) (this : V) (args : List V) (hmin : fn.opts.minArgs ≤ args.length)
    (hlen : args.length ≤ 0xFFFFFFFF) :
    ∃ regs, initRegisters fn this args = some regs ∧ regs.length = fn.opts.numRegs ∧
      (f.this = true → regs[f.thisAt]? = some (.val this)) ∧
      (f.haveEll = true → regs[f.ellReg]? = some (.arr (args.drop f.params.length))) ∧
      (∀ i, i < f.numRegArgs → regs[f.indep + i]? = (if i < args.length then args[i]? else fn.defaults[i - fn.opts.minArgs]?).map .val) ∧
      (f.haveRest = true → regs[f.indep + 31]? = some (.arr (restArray fn args))) ∧
      (∀ j, j < f.binds → regs[f.bindAt + j]? = fn.closures[j]?.map .val) := by
  obtain ⟨mc, md, mcl, mell⟩ := m
  obtain ⟨c1, c2, c3, c4, c5, c6, c7, c8, c9, c10, c11⟩ := compile_eq f extra _ mc
  have hn := numArgs_le f
  have hR := numRegArgs_le f
  have hl := length_params f
  have hrest := haveRest_iff f
  have hR31 : f.haveRest = true → f.numRegArgs = 31 := fun h => by simp [Decl.numRegArgs, h]
  have hRno : f.haveRest = false → f.numRegArgs = f.numArgs := fun h => by simp [Decl.numRegArgs, h]
  have hat : f.thisAt = f.indep + f.numRegArgs + f.haveRest.toNat := rfl
  have hea : f.ellAt = f.thisAt + f.this.toNat := rfl
  have hec := ellReg_cases f
  have hnamed : fn.opts.minArgs + fn.opts.numDef = f.numArgs := by omega
  have hellnamed : f.haveEll = true → f.numArgs = f.params.length := fun h => by simp [Decl.numArgs, h]
  have hba : f.ellAt ≤ f.bindAt := by omega
  have hellR : f.haveEll = true → f.ellReg < fn.opts.numRegs ∧ f.ellReg ≠ noReg ∧ (f.ellReg < f.indep ∨ f.ellReg = f.ellAt ∧ f.bindAt = f.ellAt + 1) := by
    intro he
    rcases hec with ⟨h, _⟩ | ⟨_, h1, h2⟩ | ⟨_, h1, h2⟩
    · simp [he] at h
    · refine ⟨by omega, ?_, Or.inr ⟨h1, h2⟩⟩
      unfold noReg; omega
    · have := mell _ h1
      refine ⟨by omega, ?_, Or.inl this⟩
      unfold noReg; omega
  -- this
  have s1 : ∃ r1, initThis fn this (List.replicate fn.opts.numRegs .void) = some r1 ∧ r1.length = fn.opts.numRegs ∧
      (f.this = true → r1[f.thisAt]? = some (.val this)) := by
    cases ht : f.this with
    | false => exact ⟨List.replicate fn.opts.numRegs .void, by simp [initThis, c9, ht], by simp, by simp⟩
    | true =>
      simp only [ht, Bool.toNat_true] at hea
      obtain ⟨r1, a, b, c⟩ := put_some (List.replicate fn.opts.numRegs .void) f.thisAt (.val this) (by simp; omega)
      refine ⟨r1, ?_, by simpa using b, fun _ => by rw [c]; simp⟩
      rw [ht, if_pos rfl] at c9
      simp only [initThis, c9]
      rw [if_pos (by unfold noReg; omega)]
      exact a
  obtain ⟨r1, e1, l1, t1⟩ := s1
  -- ellipsis
  have s2 : ∃ r2, initEll fn args r1 = some r2 ∧ r2.length = fn.opts.numRegs ∧ (f.this = true → r2[f.thisAt]? = some (.val this)) ∧
      (f.haveEll = true → r2[f.ellReg]? = some (.arr (args.drop f.params.length))) := by
    cases he : f.haveEll with
    | false =>
      refine ⟨r1, ?_, l1, t1, by simp⟩
      have : f.ellReg = noReg := by rcases hec with ⟨_, h, _⟩ | ⟨h, _⟩ | ⟨h, _⟩ <;> simp_all
      simp [initEll, c8, this]
    | true =>
      obtain ⟨h1, h2, h3⟩ := hellR he
      obtain ⟨r2, a, b, c⟩ := put_some r1 f.ellReg (.arr (args.drop f.params.length)) (by omega)
      refine ⟨r2, ?_, by omega, ?_, fun _ => by rw [c]; simp⟩
      · simp only [initEll, c8, ne_eq, h2, not_false_eq_true, if_true, hnamed]
        rw [slice_surplus _ _ hlen, hellnamed he]
        exact a
      · intro ht
        simp only [ht, Bool.toNat_true] at hea
        rw [c, if_neg (by omega)]
        exact t1 ht
  obtain ⟨r2, e2, l2, t2, el2⟩ := s2
  -- arguments
  have s3 : ∃ r3, initArgs fn args r2 = some r3 ∧ r3.length = fn.opts.numRegs ∧ (f.this = true → r3[f.thisAt]? = some (.val this)) ∧
      (f.haveEll = true → r3[f.ellReg]? = some (.arr (args.drop f.params.length))) ∧
      (∀ i, i < f.numRegArgs → r3[f.indep + i]? = (if i < args.length then args[i]? else fn.defaults[i - fn.opts.minArgs]?).map .val) ∧
      (f.haveRest = true → r3[f.indep + 31]? = some (.arr (restArray fn args))) := by
    by_cases hz : f.numArgs = 0
    · refine ⟨r2, by simp [initArgs, c6, hz], l2, t2, el2, fun i hi => by omega, fun h => ?_⟩
      have := hrest.mp h; omega
    · rw [if_neg hz] at c6
      have hlast : min fn.opts.restReg (fn.opts.argsReg + (fn.opts.minArgs + fn.opts.numDef)) = f.indep + f.numRegArgs := by
        rw [hnamed, c6, c7]
        cases hr : f.haveRest with
        | false => simp only [hr, Bool.false_eq_true, if_false, noReg, hRno hr, Bool.toNat_false] at *; omega
        | true => simp only [if_true, hR31 hr]; have := hrest.mp hr; omega
      have hind : f.indep ≠ noReg := by unfold noReg; cases hr : f.haveRest <;> simp only [hr, Bool.toNat_true, Bool.toNat_false] at hat <;> (try have := hRno hr) <;> (try have := hR31 hr) <;> omega
      obtain ⟨r3, a3, b3, g3⟩ := move_some r2 f.indep args 0 (min args.length f.numRegArgs) (by omega) (by omega)
      -- defaults
      have s4 : ∃ r4, (if f.indep + min args.length f.numRegArgs < f.indep + f.numRegArgs then
            move r3 (f.indep + min args.length f.numRegArgs) fn.defaults (args.length - fn.opts.minArgs)
              (f.indep + f.numRegArgs - (f.indep + min args.length f.numRegArgs)) else some r3) = some r4 ∧ r4.length = fn.opts.numRegs ∧
          (∀ i, i < f.numRegArgs → r4[f.indep + i]? = (if i < args.length then args[i]? else fn.defaults[i - fn.opts.minArgs]?).map .val) ∧
          ∀ k, k < f.indep ∨ f.indep + f.numRegArgs ≤ k → r4[k]? = r2[k]? := by
        by_cases hlt : args.length < f.numRegArgs
        · have e : min args.length f.numRegArgs = args.length := by omega
          rw [e] at g3 a3 ⊢
          obtain ⟨r4, a4, b4, g4⟩ := move_some r3 (f.indep + args.length) fn.defaults (args.length - fn.opts.minArgs)
            (f.indep + f.numRegArgs - (f.indep + args.length)) (by omega) (by omega)
          refine ⟨r4, by rw [if_pos (by omega)]; exact a4, by omega, ?_, ?_⟩
          · intro i hi
            rw [g4]
            by_cases hia : i < args.length
            · rw [if_neg (by omega), g3, if_pos (by omega), if_pos hia]
              congr 2; omega
            · rw [if_pos (by omega), if_neg hia]
              congr 2; omega
          · intro k hk
            rw [g4, if_neg (by omega), g3, if_neg (by omega)]
        · have e : min args.length f.numRegArgs = f.numRegArgs := by omega
          rw [e] at g3 a3 ⊢
          refine ⟨r3, by rw [if_neg (by omega)], by omega, ?_, ?_⟩
          · intro i hi
            rw [g3, if_pos (by omega), if_pos (by omega)]
            congr 2; omega
          · intro k hk
            rw [g3, if_neg (by omega)]
      obtain ⟨r4, a4, b4, g4, k4⟩ := s4
      have hthis4 : f.this = true → r4[f.thisAt]? = some (.val this) := fun ht => by rw [k4 _ (by omega)]; exact t2 ht
      have hell4 : f.haveEll = true → r4[f.ellReg]? = some (.arr (args.drop f.params.length)) := fun he => by
        rw [k4 _ (by have := (hellR he).2.2; omega)]; exact el2 he
      have hstart : initArgs fn args r2 = if fn.opts.restReg ≠ noReg then put r4 fn.opts.restReg (.arr (restArray fn args)) else some r4 := by
        rw [c6] at hlast
        simp only [initArgs, c6, ne_eq, hind, not_false_eq_true, if_true, hlast, Nat.add_sub_cancel_left]
        rw [a3]
        simp only []
        rw [a4]
      rw [hstart]
      cases hr : f.haveRest with
      | false =>
        simp only [hr, Bool.false_eq_true, if_false] at c7
        exact ⟨r4, by simp [c7], b4, hthis4, hell4, g4, by simp⟩
      | true =>
        have h31 := hR31 hr
        simp only [hr, if_true] at c7
        simp only [hr, Bool.toNat_true] at hat
        obtain ⟨r5, a5, b5, g5⟩ := put_some r4 (f.indep + 31) (.arr (restArray fn args)) (by omega)
        refine ⟨r5, ?_, by omega, ?_, ?_, ?_, fun _ => by rw [g5]; simp⟩
        · rw [c7, if_pos (by unfold noReg; omega)]; exact a5
        · intro ht; rw [g5, if_neg (by omega)]; exact hthis4 ht
        · intro he; rw [g5, if_neg (by have := (hellR he).2.2; omega)]; exact hell4 he
        · intro i hi; rw [g5, if_neg (by omega)]; exact g4 i hi
  obtain ⟨r3, e3, l3, t3, el3, a3, rs3⟩ := s3
  -- binds
  have s4 : ∃ r4, initBinds fn r3 = some r4 ∧ r4.length = fn.opts.numRegs ∧ (∀ k, k < f.bindAt → r4[k]? = r3[k]?) ∧
      (∀ j, j < f.binds → r4[f.bindAt + j]? = fn.closures[j]?.map .val) := by
    by_cases hb : f.binds = 0
    · exact ⟨r3, by simp [initBinds, c10, hb], l3, fun _ _ => rfl, fun j hj => by omega⟩
    · rw [if_neg hb] at c10
      obtain ⟨r4, a4, b4, g4⟩ := move_some r3 f.bindAt fn.closures 0 fn.closures.length (by omega) (by omega)
      refine ⟨r4, ?_, by omega, fun k hk => by rw [g4, if_neg (by omega)], fun j hj => ?_⟩
      · simp only [initBinds, c10]
        rw [if_pos (by unfold noReg; omega)]
        exact a4
      · rw [g4, if_pos (by omega)]; congr 2; omega
  obtain ⟨r4, e4, l4, k4, b4⟩ := s4
  refine ⟨r4, by simp only [initRegisters, e1, e2, e3, e4], l4, ?_, ?_, ?_, ?_, b4⟩
  · intro ht
    simp only [ht, Bool.toNat_true] at hea
    rw [k4 _ (by omega)]; exact t3 ht
  · intro he
    rw [k4 _ (by have := (hellR he).2.2; omega)]; exact el3 he
  · intro i hi; rw [k4 _ (by omega)]; exact a3 i hi
  · intro hr
    have := hR31 hr
    simp only [hr, Bool.toNat_true] at hat
    rw [k4 _ (by omega)]; exact rs3 hr

/-- The array with the remaining arguments: right, unless arguments go beyond the registers but are not complete. -/
theorem restArray_get (f : Decl) (extra : Nat) (fn : Func V) (m : Made f extra fn) (args : List V) (hmin : fn.opts.minArgs ≤ args.length)
    (hr : f.haveRest = true) (i : Nat) (hi : 31 ≤ i) (hin : i < f.numArgs) :
    (restArray fn args)[i - 31]? =
      if i < args.length then args[i]?
      else if args.length < 31 then fn.defaults[i - f.req.length]?
      else fn.defaults[i - 31]? := by
  obtain ⟨mc, md, mcl, mell⟩ := m
  obtain ⟨c1, c2, c3, c4, c5, c6, c7, c8, c9, c10, c11⟩ := compile_eq f extra _ mc
  have h32 := (haveRest_iff f).mp hr
  have hn := numArgs_le f
  have hl := length_params f
  have hnamed : fn.opts.minArgs + fn.opts.numDef = f.numArgs := by omega
  rw [if_neg (by omega)] at c6
  simp only [hr, if_true] at c7
  have hreg : min fn.opts.restReg (fn.opts.argsReg + f.numArgs) - fn.opts.argsReg = 31 := by omega
  simp only [restArray, hnamed, hreg, sliceArgs_eq]
  by_cases hia : i < args.length
  · rw [if_pos hia]
    have hs : ((args.drop 31).take (f.numArgs - 31))[i - 31]? = args[i]? := by
      rw [List.getElem?_take, if_pos (by omega), List.getElem?_drop]; congr 1; omega
    split
    · rw [List.getElem?_append_left (by simp; omega)]; exact hs
    · exact hs
  · rw [if_neg hia, if_pos (by omega)]
    by_cases h31 : args.length < 31
    · rw [if_pos h31, if_pos h31, List.getElem?_append_right (by simp; omega), List.getElem?_drop]
      have : ((args.drop 31).take (f.numArgs - 31)).length = 0 := by simp; omega
      rw [this]; congr 1; omega
    · rw [if_neg h31, if_neg h31, List.getElem?_append_right (by simp; omega), List.getElem?_drop]
      have : ((args.drop 31).take (f.numArgs - 31)).length = args.length - 31 := by simp; omega
      rw [this]; congr 1; omega

end Verif.Call
