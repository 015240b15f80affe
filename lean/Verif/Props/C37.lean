import Verif.Ctl.Range

/-
C37: a `for` loop over `range()` which is compiled to a counting loop runs its body for exactly the values which the generator `range`
yields, in order.  The body is any function of the loop variable and the memory, so that the two loops are compared by everything which
the body does, how the loop ends, and when it does not end.
-/
namespace Verif.Ctl

variable {σ V L : Type}

/-- The full claim: whenever the compiler uses its own loop, this loop does what a loop over the generator does. -/
def C37_full : Prop := ∀ (σ V L : Type) (A : Arith σ V L), A.Lawful → ∀ (args : List (Arg σ V L)), (∀ a ∈ args, a.Ok A) → isForRange args = true →
  ∀ (body : V → σ → Option (Out V × σ)) (n : Nat) (s : σ), forRange A body n args s = plainLoop A body n args s

/-- The step, if it is given, is not zero (nor NaN). -/
def StepOk (A : Arith σ V L) (args : List (Arg σ V L)) : Prop :=
  ∀ c ∈ args[2]?, ∀ l, c.const = some l → ∀ s, A.lt (A.lit l) A.zero s = true ∨ A.lt A.zero (A.lit l) s = true

/-- From the test on, both loops do the same. -/
theorem up_eq (A : Arith σ V L) (body : V → σ → Option (Out V × σ)) (stop step : V) (n : Nat) : ∀ (g : Range V) (start : V) (s t : σ),
    g.next A s = Range.tryUp A start stop step t → genLoop A body n g s = countLoop A body false stop step n start t := by
  induction n with
  | zero =>
    intro g start s t hg
    simp only [genLoop, hg, Range.tryUp, countLoop, more, Bool.false_eq_true, if_false]
    cases A.lt start stop t <;> rfl
  | succ n ih =>
    intro g start s t hg
    simp only [genLoop, hg, Range.tryUp, countLoop, more, Bool.false_eq_true, if_false]
    cases A.lt start stop t with
    | false => rfl
    | true =>
      simp only [if_true]
      congr 1
      funext u
      cases ha : A.add start step u with
      | exn v u' => cases n <;> simp [genLoop, Range.next, ha]
      | ok it u' => exact ih _ it u u' (by simp [Range.next, ha])

theorem down_eq (A : Arith σ V L) (body : V → σ → Option (Out V × σ)) (stop step : V) (n : Nat) : ∀ (g : Range V) (start : V) (s t : σ),
    g.next A s = Range.tryDown A start stop step t → genLoop A body n g s = countLoop A body true stop step n start t := by
  induction n with
  | zero =>
    intro g start s t hg
    simp only [genLoop, hg, Range.tryDown, countLoop, more, if_true]
    cases A.lt stop start t <;> rfl
  | succ n ih =>
    intro g start s t hg
    simp only [genLoop, hg, Range.tryDown, countLoop, more, if_true]
    cases A.lt stop start t with
    | false => rfl
    | true =>
      simp only [if_true]
      congr 1
      funext u
      cases ha : A.add start step u with
      | exn v u' => cases n <;> simp [genLoop, Range.next, ha]
      | ok it u' => exact ih _ it u u' (by simp [Range.next, ha])

/-- **C37**, with at most three arguments and a step which is not zero.  What is missing: further arguments are not evaluated, and a step of
zero makes the compiled loop run forever. -/
theorem C37_partial (A : Arith σ V L) (hA : A.Lawful) (args : List (Arg σ V L)) (hargs : ∀ a ∈ args, a.Ok A) (hr : isForRange args = true)
    (h3 : args.length ≤ 3) (hstep : StepOk A args) (body : V → σ → Option (Out V × σ)) (n : Nat) (s : σ) :
    forRange A body n args s = plainLoop A body n args s := by
  match args with
  | [] => simp [isForRange] at hr
  | [e] =>
    simp only [forRange, plainLoop, evalArgs]
    cases e.eval s with
    | exn v s => rfl
    | ok v s => exact (up_eq A body _ _ n _ _ s s (by simp [Range.next, Range.begin, hA.one])).symm
  | [b, e] =>
    simp only [forRange, plainLoop, evalArgs]
    cases b.eval s with
    | exn v s => rfl
    | ok start s =>
      simp only
      cases e.eval s with
      | exn v s => rfl
      | ok stop s => exact (up_eq A body _ _ n _ _ s s (by simp [Range.next, Range.begin, hA.one])).symm
  | [b, e, c] =>
    simp only [forRange, plainLoop, evalArgs]
    cases b.eval s with
    | exn v s => rfl
    | ok start s =>
      simp only
      cases e.eval s with
      | exn v s => rfl
      | ok stop s =>
        simp only
        simp only [isForRange, Bool.and_eq_true, Option.isSome_iff_exists] at hr
        obtain ⟨-, l, hl⟩ := hr
        rw [hargs c (by simp) l hl s]
        simp only [hl]
        have hs := hstep c (by simp) l hl s
        cases hneg : A.neg l with
        | false =>
          have h0 := hA.neg l s
          rw [hneg] at h0
          simp only [h0, Bool.false_eq_true, false_or] at hs
          exact (up_eq A body _ _ n _ _ s s (by simp [Range.next, Range.begin, hs])).symm
        | true =>
          have h0 := hA.neg l s
          rw [hneg] at h0
          have h1 := hA.asymm _ _ _ h0
          exact (down_eq A body _ _ n _ _ s s (by simp [Range.next, Range.begin, h0, h1])).symm
  | _ :: _ :: _ :: _ :: _ => simp at h3

/-! ### What the loop does, in terms of the list of values -/

/-- The body runs for each value in turn: `break` ends the loop, `continue` goes on with the next value, and `return` and `throw` leave the loop. -/
inductive Over (body : V → σ → Option (Out V × σ)) : List V → σ → Out V → σ → Prop
  | nil (s : σ) : Over body [] s .normal s
  | next (v : V) (vs : List V) (s s₁ s₂ : σ) (o o' : Out V) (h : body v s = some (o, s₁)) (ho : o = .normal ∨ o = .jump .cont) (hr : Over body vs s₁ o' s₂) :
    Over body (v :: vs) s o' s₂
  | brk (v : V) (vs : List V) (s s₁ : σ) (h : body v s = some (.jump .brk, s₁)) : Over body (v :: vs) s .normal s₁
  | leave (v : V) (vs : List V) (s s₁ : σ) (o : Out V) (h : body v s = some (o, s₁)) (h₁ : o ≠ .normal) (h₂ : o ≠ .jump .cont) (h₃ : o ≠ .jump .brk) :
    Over body (v :: vs) s o s₁

/-- Integers, with any memory; ADD and CMP.LT do not look at it. -/
def ints (σ : Type) : Arith σ Int Int where
  lt a b _ := decide (a < b)
  add a b s := .ok (a + b) s
  wrap v := v
  zero := 0
  one := 1
  lit l := l
  neg l := decide (l < 0)

theorem onward_over (body : V → σ → Option (Out V × σ)) (v : V) (vs : List V) (s : σ) (k : σ → Option (Out V × σ))
    (hk : ∀ s o s', k s = some (o, s') ↔ Over body vs s o s') (o : Out V) (s' : σ) : onward (body v s) k = some (o, s') ↔ Over body (v :: vs) s o s' := by
  cases hb : body v s with
  | none =>
    refine ⟨fun h => (by cases h), fun h => ?_⟩
    cases h with
    | next _ _ _ _ _ _ _ h => rw [hb] at h; cases h
    | brk _ _ _ _ h => rw [hb] at h; cases h
    | leave _ _ _ _ _ h => rw [hb] at h; cases h
  | some x =>
    obtain ⟨o₁, s₁⟩ := x
    have other : ∀ {o₂ s₂}, body v s = some (o₂, s₂) → o₂ = o₁ ∧ s₂ = s₁ := fun h => by rw [hb] at h; cases h; exact ⟨rfl, rfl⟩
    have on : (o₁ = .normal ∨ o₁ = .jump .cont) → (onward (some (o₁, s₁)) k = some (o, s') ↔ Over body (v :: vs) s o s') := by
      intro ho
      have : onward (some (o₁, s₁)) k = k s₁ := by rcases ho with rfl | rfl <;> rfl
      rw [this, hk]
      refine ⟨fun h => .next v vs s s₁ s' o₁ o hb ho h, fun h => ?_⟩
      cases h with
      | next _ _ _ s₃ _ o₃ _ h _ hr => obtain ⟨-, rfl⟩ := other h; exact hr
      | brk _ _ _ _ h => obtain ⟨rfl, -⟩ := other h; simp at ho
      | leave _ _ _ _ _ h h₁ h₂ h₃ => obtain ⟨rfl, -⟩ := other h; exact (ho.elim h₁ h₂).elim
    have off : ∀ (h₁ : o₁ ≠ .normal) (h₂ : o₁ ≠ .jump .cont) (h₃ : o₁ ≠ .jump .brk), onward (some (o₁, s₁)) k = some (o₁, s₁) →
        (onward (some (o₁, s₁)) k = some (o, s') ↔ Over body (v :: vs) s o s') := by
      intro h₁ h₂ h₃ he
      rw [he]
      constructor
      · intro h; cases h; exact .leave v vs s _ _ hb h₁ h₂ h₃
      · intro h
        cases h with
        | next _ _ _ s₃ _ o₃ _ h ho hr => obtain ⟨rfl, -⟩ := other h; exact (ho.elim h₁ h₂).elim
        | brk _ _ _ _ h => obtain ⟨rfl, -⟩ := other h; exact (h₃ rfl).elim
        | leave _ _ _ _ _ h => obtain ⟨rfl, rfl⟩ := other h; rfl
    match o₁ with
    | .normal => exact on (.inl rfl)
    | .jump .cont => exact on (.inr rfl)
    | .jump .brk =>
      show some (Out.normal, s₁) = some (o, s') ↔ _
      constructor
      · intro h; cases h; exact .brk v vs s _ hb
      · intro h
        cases h with
        | next _ _ _ s₃ _ o₃ _ h ho hr => obtain ⟨rfl, -⟩ := other h; simp at ho
        | brk _ _ _ _ h => obtain ⟨-, rfl⟩ := other h; rfl
        | leave _ _ _ _ _ h _ _ h₃ => obtain ⟨rfl, -⟩ := other h; exact (h₃ rfl).elim
    | .jump .fall => exact off (by simp) (by simp) (by simp) rfl
    | .ret w => exact off (by simp) (by simp) (by simp) rfl
    | .thr w => exact off (by simp) (by simp) (by simp) rfl

theorem over_nil (body : V → σ → Option (Out V × σ)) (s : σ) (o : Out V) (s' : σ) : some (Out.normal, s) = some (o, s') ↔ Over body [] s o s' :=
  ⟨fun h => by cases h; exact .nil s, fun h => by cases h; rfl⟩

/-- The values of a loop with `k` passes. -/
def progression (start step : Int) (k : Nat) : List Int := (List.range k).map fun (i : Nat) => start + i * step

theorem progression_succ (start step : Int) (k : Nat) : progression start step (k + 1) = start :: progression (start + step) step k := by
  simp only [progression, List.range_succ_eq_map, List.map_cons, List.map_map, List.cons.injEq]
  refine ⟨by simp, List.map_congr_left fun i _ => ?_⟩
  simp only [Function.comp, Nat.succ_eq_add_one, Int.natCast_add, Int.add_mul]
  omega

theorem count_over (body : Int → σ → Option (Out Int × σ)) (stop step : Int) (d : Bool) (k : Nat) : ∀ (n : Nat) (start : Int), k ≤ n →
    (∀ v ∈ progression start step k, (if d then stop < v else v < stop)) → ¬ (if d then stop < start + k * step else start + k * step < stop) →
    ∀ (s : σ) (o : Out Int) (s' : σ), countLoop (ints σ) body d stop step n start s = some (o, s') ↔ Over body (progression start step k) s o s' := by
  induction k with
  | zero =>
    intro n start hn hv he s o s'
    have hm : more (ints σ) d start stop s = false := by
      cases d <;> simpa [more, ints] using he
    cases n <;> simp only [countLoop, hm, Bool.false_eq_true, if_false] <;> exact over_nil body s o s'
  | succ k ih =>
    intro n start hn hv he s o s'
    obtain ⟨n, rfl⟩ : ∃ m, n = m + 1 := ⟨n - 1, by omega⟩
    rw [progression_succ] at hv ⊢
    have h0 := hv start (by simp)
    have hm : more (ints σ) d start stop s = true := by
      cases d <;> simpa [more, ints] using h0
    simp only [countLoop, hm, if_true]
    refine onward_over body start _ s _ (fun s o s' => ?_) o s'
    refine ih n (start + step) (by omega) (fun v h => hv v (by simp [h])) ?_ s o s'
    have e : start + step + k * step = start + ((k + 1 : Nat) : Int) * step := by
      simp only [Int.natCast_add, Int.add_mul]; omega
    rw [e]
    exact he

/-- **C37**, in terms of values: a loop over `range(start, stop, step)`, where the step is a constant, runs the body for `start`,
`start + step` and so on, as many as are before `stop`. -/
theorem C37_values (body : Int → σ → Option (Out Int × σ)) (start stop step : Int) (k n : Nat) (hk : k ≤ n)
    (hin : ∀ i < k, if step < 0 then stop < start + i * step else start + (i : Nat) * step < stop)
    (hout : if step < 0 then start + k * step ≤ stop else stop ≤ start + k * step) (a b c : Arg σ Int Int)
    (ha : ∀ s, a.eval s = .ok start s) (hb : ∀ s, b.eval s = .ok stop s) (hc : ∀ s, c.eval s = .ok step s) (hcc : c.const = some step) (s : σ) (o : Out Int) (s' : σ) :
    forRange (ints σ) body n [a, b, c] s = some (o, s') ↔ Over body (progression start step k) s o s' := by
  simp only [forRange, ha, hb, hc, hcc]
  refine count_over body stop step _ k n start hk (fun v hv => ?_) ?_ s o s'
  · obtain ⟨i, hi, rfl⟩ := List.mem_map.1 hv
    have := hin i (List.mem_range.1 hi)
    simpa [ints] using this
  · by_cases hs : step < 0
    · simp only [hs, if_true] at hout
      simp [ints, hs, hout]
    · simp only [hs, if_false] at hout
      simp [ints, hs, hout]

/-- A loop over `range(start, stop)` runs the body for the integers from `start` up to `stop`, without `stop`. -/
theorem C37_values_up (body : Int → σ → Option (Out Int × σ)) (start stop : Int) (n : Nat) (hn : (stop - start).toNat ≤ n) (a b : Arg σ Int Int)
    (ha : ∀ s, a.eval s = .ok start s) (hb : ∀ s, b.eval s = .ok stop s) (s : σ) (o : Out Int) (s' : σ) :
    forRange (ints σ) body n [a, b] s = some (o, s') ↔ Over body (progression start 1 (stop - start).toNat) s o s' := by
  simp only [forRange, ha, hb]
  refine count_over body stop 1 false _ n start hn (fun v hv => ?_) ?_ s o s'
  · obtain ⟨i, hi, rfl⟩ := List.mem_map.1 hv
    have := List.mem_range.1 hi
    simp only [Bool.false_eq_true, if_false]
    omega
  · simp only [Bool.false_eq_true, if_false]
    omega

/-! ### Counterexamples -/

/-- Integers; the memory is the list of values which the body has seen, latest first. -/
def intArith : Arith (List Int) Int Int where
  lt a b _ := decide (a < b)
  add a b s := .ok (a + b) s
  wrap v := v
  zero := 0
  one := 1
  lit l := l
  neg l := decide (l < 0)

theorem intArith_lawful : intArith.Lawful where
  neg _ _ := rfl
  one _ := rfl
  asymm a b s h := by simp only [intArith, decide_eq_true_eq, decide_eq_false_iff_not] at h ⊢; omega

/-- A numeric constant. -/
def constArg (i : Int) : Arg (List Int) Int Int := ⟨fun s => .ok i s, some i, false⟩

/-- An expression with an effect. -/
def effectArg (i : Int) : Arg (List Int) Int Int := ⟨fun s => .ok i (100 :: s), none, false⟩

/-- The body notes the loop variable and ends the function after five passes. -/
def noteBody (v : Int) (s : List Int) : Option (Out Int × List Int) := if s.length < 4 then some (.normal, v :: s) else some (.ret v, v :: s)

/-- `for const x in range(0, 3, 0)`: the generator yields nothing, the compiled loop does not end by itself. -/
theorem C37_zero_step_violated :
    plainLoop intArith noteBody 9 [constArg 0, constArg 3, constArg 0] [] = some (.normal, []) ∧
    forRange intArith noteBody 9 [constArg 0, constArg 3, constArg 0] [] = some (.ret 0, [0, 0, 0, 0, 0]) := by
  decide +kernel

/-- With a step of zero, the compiled loop never ends if the body does not end it. -/
theorem C37_zero_step_forever (n : Nat) (s : List Int) :
    forRange intArith (fun v s => some (.normal, v :: s)) n [constArg 0, constArg 3, constArg 0] s = none := by
  show countLoop intArith (fun v s => some (.normal, v :: s)) false 3 0 n 0 s = none
  induction n generalizing s with
  | zero => rfl
  | succ n ih => exact ih (0 :: s)

/-- `for const x in range(0, 1, 1, f())`: `f` is not called. -/
theorem C37_fourth_argument_violated :
    isForRange [constArg 0, constArg 1, constArg 1, effectArg 7] = true ∧
    plainLoop intArith noteBody 9 [constArg 0, constArg 1, constArg 1, effectArg 7] [] = some (.normal, [0, 100]) ∧
    forRange intArith noteBody 9 [constArg 0, constArg 1, constArg 1, effectArg 7] [] = some (.normal, [0]) := by
  decide +kernel

/-- Any beginning of the word counts as `range`: `for const x in base.r(3)` loops instead of raising an exception. -/
theorem C37_name_violated : isRangeName "range" = true ∧ isRangeName "r" = true ∧ isRangeName "" = true := by decide +kernel

theorem strncmp_prefix : ∀ s t : List Char, strncmpRange s t = true ↔ s <+: t
  | [], t => by simp [strncmpRange]
  | a :: s, [] => by simp [strncmpRange]
  | a :: s, b :: t => by simp [strncmpRange, strncmp_prefix s t, List.cons_prefix_cons]

/-- The names which are taken for `range` are exactly its six beginnings. -/
theorem C37_names (name : String) : isRangeName name = true ↔ name.toList <+: "range".toList := strncmp_prefix _ _

theorem C37_violated : ¬ C37_full := fun h => by
  have := h _ _ _ intArith intArith_lawful [constArg 0, constArg 3, constArg 0] (by simp [Arg.Ok, constArg, intArith]) rfl noteBody 9 []
  rw [C37_zero_step_violated.1, C37_zero_step_violated.2] at this
  cases this

/-! ### Examples -/

example : forRange intArith noteBody 9 [constArg 2, effectArg (-4), constArg (-2)] [] = some (.normal, [-2, 0, 2, 100]) := by decide +kernel

example : isForRange [constArg 2, effectArg (-4), constArg (-2)] = true ∧ StepOk intArith [constArg 2, effectArg (-4), constArg (-2)] := by
  refine ⟨rfl, ?_⟩
  simp [StepOk, constArg, intArith]

end Verif.Ctl
