import Verif.Call.InitLemmas

/-
C31: in every call, parameter `i` receives argument `i` if there is one, else its default value; surplus arguments go to the parameter with
`...` in order; too few arguments raise an exception.
-/
namespace Verif.Call

variable {V : Type}

/-- What parameter `i` is to be. -/
def meant (args : List V) (dflt : Nat → V) (i : Nat) : V := args[i]?.getD (dflt i)

/-- Parameter `i` is used in the function. -/
def Decl.Used (f : Decl) (i : Nat) : Prop := ∃ p, f.params[i]? = some p ∧ p.used = true

/-- The register of a captured ellipsis is one of those for independent variables. -/
def Decl.EllOk (f : Decl) : Prop := ∀ r, f.ell = some ⟨true, some r⟩ → r < f.indep

/-- The function object for a declaration. -/
def object (void : V) (f : Decl) (c : Comp) (dflt : Nat → V) (closures : List V) : Func V := ⟨c, makeDefaults void f c dflt, closures⟩

/-- Everything which the code of the function can read is as it should be. -/
structure Bound (f : Decl) (c : Comp) (this : V) (args : List V) (dflt : Nat → V) (closures : List V) (regs : List (Cell V)) : Prop where
  params : ∀ i, f.Used i → readParam f c regs i = .ok (meant args dflt i)
  ell    : f.haveEll = true → regs[c.ellReg]? = some (.arr (args.drop f.params.length))
  this   : f.this = true → regs[c.thisReg]? = some (.val this)
  binds  : ∀ j, j < f.binds → regs[c.bindReg + j]? = closures[j]?.map .val

/-- The full claim. -/
def C31_full : Prop := ∀ (V : Type) (void this : V) (f : Decl) (extra : Nat) (c : Comp) (dflt : Nat → V) (closures args : List V),
  compile f extra = some c → f.EllOk → closures.length = f.binds → args.length ≤ 0xFFFFFFFF →
  if args.length < f.req.length then enter (object void f c dflt closures) this args = .few
  else ∃ regs, enter (object void f c dflt closures) this args = .regs regs ∧ Bound f c this args dflt closures regs

/-- All parameters which are used are in registers, or the arguments end there, or all are given, or the register of the first parameter with
a default value is the last one for arguments. -/
def Whole (f : Decl) (args : List V) : Prop := f.numArgs ≤ 32 ∨ args.length < 31 ∨ f.numArgs ≤ args.length ∨ f.req.length = 31

theorem object_made (void : V) (f : Decl) (extra : Nat) (c : Comp) (dflt : Nat → V) (closures : List V) (hc : compile f extra = some c)
    (he : f.EllOk) (hcl : closures.length = f.binds) : Made f extra (object void f c dflt closures) :=
  ⟨hc, by simp [object, makeDefaults], hcl, he⟩

/-- Default value number `j` in the array. -/
theorem defaults_get (void : V) (f : Decl) (c : Comp) (dflt : Nat → V) (j : Nat) (hj : j < c.numDef) :
    (makeDefaults void f c dflt)[j]? = some (if f.opt[j]?.getD false then dflt (f.req.length + j) else void) := by
  simp [makeDefaults, hj]

theorem used_opt (f : Decl) (i : Nat) (h : f.Used i) (hi : f.req.length ≤ i) : f.opt[i - f.req.length]? = some true := by
  obtain ⟨p, hp, hu⟩ := h
  unfold Decl.params at hp
  rw [List.getElem?_append_right (by simpa using hi), List.getElem?_map, List.length_map] at hp
  obtain ⟨b, hb, rfl⟩ := Option.map_eq_some_iff.mp hp
  rw [hb, ← hu]

theorem numDef_eq (f : Decl) (extra : Nat) (c : Comp) (hc : compile f extra = some c) : c.numDef = f.numArgs - f.req.length :=
  (compile_eq f extra c hc).2.2.2.2.1

/-- The default value of a used parameter. -/
theorem default_used (void : V) (f : Decl) (extra : Nat) (c : Comp) (hc : compile f extra = some c) (dflt : Nat → V) (i : Nat) (h : f.Used i)
    (hi : f.req.length ≤ i) : (makeDefaults void f c dflt)[i - f.req.length]? = some (dflt i) := by
  obtain ⟨p, hp, hu⟩ := h
  have h1 := used_lt f i p hp hu
  have h2 := numDef_eq f extra c hc
  rw [defaults_get _ _ _ _ _ (by omega), used_opt f i ⟨p, hp, hu⟩ hi]
  simp only [Option.getD_some, if_true]
  congr 2; omega

/-- What a parameter is after a call which has enough arguments: as meant, unless its default value is taken in the wrong place. -/
theorem read_param (void this : V) (f : Decl) (extra : Nat) (c : Comp) (dflt : Nat → V) (closures args : List V) (hc : compile f extra = some c)
    (he : f.EllOk) (hcl : closures.length = f.binds) (hlen : args.length ≤ 0xFFFFFFFF) (hmin : min f.numArgs f.req.length ≤ args.length) :
    ∃ regs, enter (object void f c dflt closures) this args = .regs regs ∧
      (f.haveEll = true → regs[c.ellReg]? = some (.arr (args.drop f.params.length))) ∧
      (f.this = true → regs[c.thisReg]? = some (.val this)) ∧
      (∀ j, j < f.binds → regs[c.bindReg + j]? = closures[j]?.map .val) ∧
      ∀ i, f.Used i → readParam f c regs i =
        if args.length ≤ i ∧ 32 < f.numArgs ∧ 31 ≤ args.length then
          match (makeDefaults void f c dflt)[i - 31]? with
          | some v => .ok v
          | none => .exn
        else .ok (meant args dflt i) := by
  have m := object_made void f extra c dflt closures hc he hcl
  obtain ⟨c1, c2, c3, c4, c5, c6, c7, c8, c9, c10, c11⟩ := compile_eq f extra _ hc
  have hn := numArgs_le f
  have hl := length_params f
  have hmin' : (object void f c dflt closures).opts.minArgs ≤ args.length := by show c.minArgs ≤ _; omega
  obtain ⟨regs, e, -, t, el, a, rs, b⟩ := init_spec f extra _ m this args hmin' hlen
  refine ⟨regs, ?_, ?_, ?_, ?_, ?_⟩
  · simp only [enter, e]
    rw [if_neg (by omega)]
  · rw [c8]; exact el
  · intro ht; rw [c9, if_pos ht]; exact t ht
  · intro j hj; rw [c10, if_neg (by omega)]; exact b j hj
  · intro i hi
    have hi' : i < f.numArgs := by obtain ⟨p, hp, hu⟩ := hi; exact used_lt f i p hp hu
    by_cases hreg : f.inReg i = true
    · have hreg2 : f.haveRest = true → i < 31 := fun hr => by simpa [Decl.inReg, hr] using hreg
      have hireg : i < f.numRegArgs := by
        unfold Decl.numRegArgs; split
        · rename_i hr; exact hreg2 hr
        · exact hi'
      rw [if_neg]
      · have hr : c.regs[i]? = some (f.indep + i) := by rw [c11]; simp [hireg]
        simp only [readParam, hreg, if_true, hr, a i hireg, meant]
        by_cases hia : i < args.length
        · simp [hia]
        · rw [if_neg hia]
          have hreq : f.req.length ≤ i := by omega
          show (match Option.map Cell.val (makeDefaults void f c dflt)[i - c.minArgs]? with
            | some (.val v) => Read.ok v
            | _ => Read.bad) = _
          rw [show i - c.minArgs = i - f.req.length by omega, default_used void f extra c hc dflt i hi hreq]
          simp [List.getElem?_eq_none (Nat.le_of_not_lt hia)]
      · intro hcon
        have := hreg2 ((haveRest_iff f).mpr hcon.2.1)
        omega
    · have hr : f.haveRest = true := by cases hr : f.haveRest <;> simp [Decl.inReg, hr] at hreg ⊢
      have h31 : 31 ≤ i := by simpa [Decl.inReg, hr] using hreg
      have h32 := (haveRest_iff f).mp hr
      simp only [readParam, hreg, Bool.false_eq_true, if_false, c7, hr, if_true, rs hr, Decl.arrayIdx]
      rw [restArray_get f extra _ m args hmin' hr i h31 hi']
      by_cases hia : i < args.length
      · rw [if_pos hia, if_neg (by omega)]
        simp [meant, hia]
      · rw [if_neg hia]
        by_cases hlt : args.length < 31
        · rw [if_pos hlt, if_neg (by omega)]
          show (match (makeDefaults void f c dflt)[i - f.req.length]? with
            | some v => Read.ok v
            | none => Read.exn) = _
          rw [default_used void f extra c hc dflt i hi (by omega)]
          simp [meant, List.getElem?_eq_none (Nat.le_of_not_lt hia)]
        · rw [if_neg hlt, if_pos (by omega)]
          rfl

/-- **C31** for all calls with enough arguments, except where `Whole` does not hold.  What is missing: with more than 32 parameters, when the
arguments end after the 31st and before the last parameter, default values are taken from the wrong place (`C31_gap`); parameters at the end
of the list which are not used are not counted as required (`C31_few`). -/
theorem C31_partial (void this : V) (f : Decl) (extra : Nat) (c : Comp) (dflt : Nat → V) (closures args : List V) (hc : compile f extra = some c)
    (he : f.EllOk) (hcl : closures.length = f.binds) (hlen : args.length ≤ 0xFFFFFFFF) (hmin : f.req.length ≤ args.length) (hw : Whole f args) :
    ∃ regs, enter (object void f c dflt closures) this args = .regs regs ∧ Bound f c this args dflt closures regs := by
  obtain ⟨regs, h1, h2, h3, h4, h5⟩ := read_param void this f extra c dflt closures args hc he hcl hlen (by omega)
  refine ⟨regs, h1, ?_, h2, h3, h4⟩
  intro i hi
  rw [h5 i hi]
  have hi' : i < f.numArgs := by obtain ⟨p, hp, hu⟩ := hi; exact used_lt f i p hp hu
  split
  · rename_i hg
    have h31 : f.req.length = 31 := by unfold Whole at hw; omega
    rw [← h31, default_used void f extra c hc dflt i hi (by omega)]
    simp [meant, List.getElem?_eq_none hg.1]
  · rfl

/-- An exception for too few arguments is raised exactly when there are fewer arguments than required parameters, where required parameters
after the last used parameter do not count if no `...` parameter is used. -/
theorem C31_few (void this : V) (f : Decl) (extra : Nat) (c : Comp) (dflt : Nat → V) (closures args : List V) (hc : compile f extra = some c)
    (he : f.EllOk) (hcl : closures.length = f.binds) (hlen : args.length ≤ 0xFFFFFFFF) :
    enter (object void f c dflt closures) this args = .few ↔ args.length < min f.numArgs f.req.length := by
  have hcm := (compile_eq f extra _ hc).2.2.2.1
  constructor
  · intro h
    refine Nat.lt_of_not_le fun hge => ?_
    obtain ⟨regs, h1, -⟩ := read_param void this f extra c dflt closures args hc he hcl hlen hge
    rw [h] at h1; cases h1
  · intro h
    simp only [enter]
    rw [if_pos]
    show args.length < c.minArgs
    omega

/-- All required parameters count if the last of them, or any parameter with default value, or the `...` parameter is used. -/
theorem C31_few_used (void this : V) (f : Decl) (extra : Nat) (c : Comp) (dflt : Nat → V) (closures args : List V) (hc : compile f extra = some c)
    (he : f.EllOk) (hcl : closures.length = f.binds) (hlen : args.length ≤ 0xFFFFFFFF)
    (hu : f.haveEll = true ∨ ∃ i, f.req.length ≤ i + 1 ∧ f.Used i) :
    enter (object void f c dflt closures) this args = .few ↔ args.length < f.req.length := by
  rw [C31_few void this f extra c dflt closures args hc he hcl hlen]
  have hn := numArgs_le f
  have hl := length_params f
  rcases hu with h | ⟨i, hi, p, hp, hu⟩
  · have : f.numArgs = f.params.length := by simp [Decl.numArgs, h]
    omega
  · have := used_lt f i p hp hu
    omega

/-- Where `Whole` does not hold: parameter `i` without an argument gets the default value of the parameter `31 - f.req.length` places before
it (after it, if this is negative), or reading it raises an exception. -/
theorem C31_gap (void this : V) (f : Decl) (extra : Nat) (c : Comp) (dflt : Nat → V) (closures args : List V) (hc : compile f extra = some c)
    (he : f.EllOk) (hcl : closures.length = f.binds) (hlen : args.length ≤ 0xFFFFFFFF) (hmin : f.req.length ≤ args.length) (hw : ¬ Whole f args) :
    ∃ regs, enter (object void f c dflt closures) this args = .regs regs ∧ ∀ i, f.Used i → readParam f c regs i =
      if i < args.length then .ok (meant args dflt i)
      else if f.numArgs ≤ i - 31 + f.req.length then .exn
      else if f.opt[i - 31]?.getD false then .ok (dflt (f.req.length + (i - 31))) else .ok void := by
  unfold Whole at hw
  obtain ⟨regs, h1, -, -, -, h5⟩ := read_param void this f extra c dflt closures args hc he hcl hlen (by omega)
  refine ⟨regs, h1, fun i hi => ?_⟩
  have hi' : i < f.numArgs := by obtain ⟨p, hp, hu⟩ := hi; exact used_lt f i p hp hu
  have hd := numDef_eq f extra c hc
  rw [h5 i hi]
  by_cases hia : i < args.length
  · rw [if_neg (by omega), if_pos hia]
  · rw [if_pos (by omega), if_neg hia]
    by_cases hx : f.numArgs ≤ i - 31 + f.req.length
    · rw [if_pos hx, List.getElem?_eq_none (by simp [makeDefaults]; omega)]
    · rw [if_neg hx, defaults_get _ _ _ _ _ (by omega)]
      simp only
      split <;> rfl

/-- Built-in functions get an array with the arguments, followed by the default values of parameters without an argument. -/
theorem C31_handler (minArgs : Nat) (defaults args : List V) :
    (enterHandler minArgs defaults args = none ↔ args.length < minArgs) ∧
    ∀ l, enterHandler minArgs defaults args = some l →
      l.length = max args.length (minArgs + defaults.length) ∧
      ∀ i, l[i]? = if i < args.length then args[i]? else defaults[i - minArgs]? := by
  unfold enterHandler
  by_cases h : args.length < minArgs
  · simp [h]
  · rw [if_neg h]
    have hnone : ∀ i, args.length ≤ i → minArgs + defaults.length ≤ args.length → defaults[i - minArgs]? = none := fun i hi hd =>
      List.getElem?_eq_none (by omega)
    refine ⟨?_, ?_⟩
    · split <;> simp [h]
    · intro l hl
      split at hl
      · cases hl
        refine ⟨by simp; omega, fun i => ?_⟩
        by_cases hi : i < args.length
        · rw [if_pos hi, List.getElem?_append_left hi]
        · rw [if_neg hi, List.getElem?_append_right (by omega), List.getElem?_drop]
          congr 1; omega
      · rename_i hc
        cases hl
        refine ⟨by omega, fun i => ?_⟩
        by_cases hi : i < args.length
        · rw [if_pos hi]
        · rw [if_neg hi, hnone i (by omega) (by omega), List.getElem?_eq_none (by omega)]

/-! ### Counterexamples -/

/-- 40 parameters with default values, all used. -/
def forty : Decl := { req := [], opt := List.replicate 40 true, ell := none, indep := 0, this := false, binds := 0 }

/-- What parameter `i` is when the function is called with the arguments `100, 101, ...`; the default value of parameter `i` is `i`. -/
def calledWith (f : Decl) (n i : Nat) : Option (Read Nat) :=
  match compile f 0 with
  | none => none
  | some c =>
    match enter (object 999 f c id []) 0 ((List.range n).map (100 + ·)) with
    | .regs regs => some (readParam f c regs i)
    | _ => none

/-- 40 parameters with default values, called with 35 arguments: the 36th parameter gets the default value of the fifth. -/
theorem C31_rest_violated : calledWith forty 35 34 = some (.ok 134) ∧ calledWith forty 35 35 = some (.ok 4) ∧ calledWith forty 30 35 = some (.ok 35) := by
  decide +kernel

/-- 35 parameters without and 5 with default values, called with 36 arguments: reading the last parameter raises an exception. -/
theorem C31_rest_exception_violated :
    calledWith { req := List.replicate 35 true, opt := List.replicate 5 true, ell := none, indep := 0, this := false, binds := 0 } 36 39 = some .exn := by
  decide +kernel

/-- A required parameter which is not used may be left out. -/
theorem C31_unused_violated :
    calledWith { req := [true, false], opt := [], ell := none, indep := 0, this := false, binds := 0 } 1 0 = some (.ok 100) := by
  decide +kernel

theorem C31_violated : ¬ C31_full := fun h => by
  have h0 := h Nat 999 0 forty 0 ((compile forty 0).get (by decide +kernel)) id [] ((List.range 35).map (100 + ·)) (by simp) (by simp [Decl.EllOk, forty]) rfl (by simp)
  rw [if_neg (by simp [forty])] at h0
  obtain ⟨regs, h1, h2⟩ := h0
  have h3 := h2.params 35 ⟨⟨true, true⟩, by decide +kernel, rfl⟩
  have h4 := C31_rest_violated.2.1
  simp only [calledWith] at h4
  have e : compile forty 0 = some ((compile forty 0).get (by decide +kernel)) := by simp
  rw [e] at h4
  simp only [h1, h3] at h4
  revert h4
  decide

/-! ### Examples -/

/-- `fun(a, b, c = 1002, d = 1003, rest...)` called with three and with six arguments. -/
def small : Decl := { req := [true, true], opt := [false, true], ell := some ⟨true, some 1⟩, indep := 2, this := true, binds := 1 }

example : (compile small 3).map (fun c => enter (object 999 small c (1000 + ·) [77]) 5 [10, 11, 12]) =
    some (.regs [.void, .arr [], .val 10, .val 11, .val 12, .val 1003, .val 5, .val 77, .void, .void, .void]) := by decide +kernel

example : (compile small 3).map (fun c => enter (object 999 small c (1000 + ·) [77]) 5 [10, 11, 12, 13, 14, 15]) =
    some (.regs [.void, .arr [14, 15], .val 10, .val 11, .val 12, .val 13, .val 5, .val 77, .void, .void, .void]) := by decide +kernel

example : (compile small 3).map (fun c => enter (object 999 small c (1000 + ·) [77]) 5 [10]) = some .few := by decide +kernel

example : calledWith forty 33 32 = some (.ok 132) ∧ calledWith forty 20 39 = some (.ok 39) := by decide +kernel

example : enterHandler 2 [102, 103, 104] [10, 11, 12] = some [10, 11, 12, 103, 104] := by decide +kernel

end Verif.Call
