import Verif.Ctl.Lang

/-
`for` over `range()`: the counting loop of the compiler (core/kos_compiler.c:2325-2432 `is_for_range`, 2640-2854 `for_range`), and the
generator (modules/base.kos:43-73 `range`).

Values are opaque: CMP.LT and ADD are parameters, which may look at memory, and ADD may throw.  The body of the loop is a function of the
loop variable; assigning the variable in the body has no effect on the counter, which is in a register of its own if the variable is not a
constant.  Left out: the reset of the loop variable to void at the end, which both kinds of loop have.
-/
namespace Verif.Ctl

variable {σ V L : Type}

/-- What is used of values.  `L` are numeric literals. -/
structure Arith (σ V L : Type) where
  /-- CMP.LT, core/kos_vm.c:2821-2842. -/
  lt   : V → V → σ → Bool
  /-- ADD -/
  add  : V → V → σ → Res σ V V
  wrap : V → V
  zero : V
  one  : V
  /-- The value of a literal. -/
  lit  : L → V
  /-- `numeric->u.i < 0` or `numeric->u.d < 0`, core/kos_compiler.c:2775-2793. -/
  neg  : L → Bool

/-- Literals and the comparison of values agree on what is negative. -/
structure Arith.Lawful (A : Arith σ V L) : Prop where
  neg : ∀ l s, A.lt (A.lit l) A.zero s = A.neg l
  one : ∀ s, A.lt A.zero A.one s = true
  /-- Not less in both directions. -/
  asymm : ∀ a b s, A.lt a b s = true → A.lt b a s = false

/-- An argument: how to evaluate it, whether it is a numeric constant, and whether it is an expanded array or named arguments. -/
structure Arg (σ V L : Type) where
  eval  : σ → Res σ V V
  const : Option L
  special : Bool := false

/-- Constants are what they are said to be. -/
def Arg.Ok (A : Arith σ V L) (a : Arg σ V L) : Prop := ∀ l, a.const = some l → ∀ s, a.eval s = .ok (A.lit l) s

/-- `strncmp(name, "range", length) != 0`, core/kos_compiler.c:2367 and 2395: the characters of the name are not 0, so this is a comparison
up to the end of the name. -/
def strncmpRange : List Char → List Char → Bool
  | [], _ => true
  | _ :: _, [] => false
  | a :: s, b :: t => a == b && strncmpRange s t

def isRangeName (name : String) : Bool := strncmpRange name.toList "range".toList

/-- core/kos_compiler.c:2400-2431, the arguments -/
def isForRange : List (Arg σ V L) → Bool
  | [] => false
  | [a] => !a.special
  | [a, b] => !a.special && !b.special
  | a :: b :: c :: _ => !a.special && !b.special && c.const.isSome

/-- What happens after the body of a loop: the loop goes on with `k` at the end of the body and after `continue`. -/
def onward (r : Option (Out V × σ)) (k : σ → Option (Out V × σ)) : Option (Out V × σ) :=
  match r with
  | none => none
  | some (.normal, s) => k s
  | some (.jump .cont, s) => k s
  | some (.jump .brk, s) => some (.normal, s)
  | some (o, s) => some (o, s)

/-! ### The loop which the compiler generates -/

/-- CMP.LT, core/kos_compiler.c:2823-2826. -/
def more (A : Arith σ V L) (decrement : Bool) (iter stop : V) (s : σ) : Bool := if decrement then A.lt stop iter s else A.lt iter stop s

/-- core/kos_compiler.c:2801-2838: test, body, ADD, and again; `none` if there are more than `n` passes. -/
def countLoop (A : Arith σ V L) (body : V → σ → Option (Out V × σ)) (decrement : Bool) (stop step : V) : Nat → V → σ → Option (Out V × σ)
  | 0, iter, s => if more A decrement iter stop s then none else some (.normal, s)
  | n + 1, iter, s =>
    if more A decrement iter stop s then
      onward (body iter s) fun s =>
        match A.add iter step s with
        | .exn v s => some (.thr (A.wrap v), s)
        | .ok iter s => countLoop A body decrement stop step n iter s
    else some (.normal, s)

/-- core/kos_compiler.c:2640-2854 `for_range`. -/
def forRange (A : Arith σ V L) (body : V → σ → Option (Out V × σ)) (n : Nat) (args : List (Arg σ V L)) (s : σ) : Option (Out V × σ) :=
  match args with
  | [] => none
  -- 2710-2727
  | [e] =>
    match e.eval s with
    | .exn v s => some (.thr (A.wrap v), s)
    | .ok stop s => countLoop A body false stop A.one n A.zero s
  -- 2728-2798
  | b :: e :: rest =>
    match b.eval s with
    | .exn v s => some (.thr (A.wrap v), s)
    | .ok start s =>
      match e.eval s with
      | .exn v s => some (.thr (A.wrap v), s)
      | .ok stop s =>
        match rest with
        | [] => countLoop A body false stop A.one n start s
        | c :: _ =>
          match c.eval s with
          | .exn v s => some (.thr (A.wrap v), s)
          | .ok step s =>
            match c.const with
            | none => none
            | some l => countLoop A body (A.neg l) stop step n start s

/-! ### The generator -/

/-- Where the generator is: not started, after `yield` in one of the loops, or finished. -/
inductive Range (V : Type)
  | fresh (start : V) (args : List V)
  | up (start stop step : V)
  | down (start stop step : V)
  | done

/-- What the generator gives: an exception, a value, or the end. -/
inductive Yield (σ V : Type)
  | exn (v : V) (s : σ)
  | value (v : V) (g : Range V) (s : σ)
  | stop (s : σ)

/-- modules/base.kos:62-65, at the test. -/
def Range.tryUp (A : Arith σ V L) (start stop step : V) (s : σ) : Yield σ V :=
  if A.lt start stop s then .value start (.up start stop step) s else .stop s

/-- modules/base.kos:68-71; `>` is CMP.LT with its operands exchanged (core/kos_compiler.c:4764). -/
def Range.tryDown (A : Arith σ V L) (start stop step : V) (s : σ) : Yield σ V :=
  if A.lt stop start s then .value start (.down start stop step) s else .stop s

/-- modules/base.kos:61-72 -/
def Range.begin (A : Arith σ V L) (start stop step : V) (s : σ) : Yield σ V :=
  if A.lt A.zero step s then tryUp A start stop step s
  else if A.lt step A.zero s then tryDown A start stop step s
  else .stop s

/-- Run the generator up to the next `yield`. -/
def Range.next (A : Arith σ V L) : Range V → σ → Yield σ V
  -- modules/base.kos:45-59
  | .fresh start [], s => begin A A.zero start A.one s
  | .fresh start [stop], s => begin A start stop A.one s
  | .fresh start (stop :: step :: _), s => begin A start stop step s
  | .up start stop step, s =>
    match A.add start step s with
    | .exn v s => .exn v s
    | .ok start s => tryUp A start stop step s
  | .down start stop step, s =>
    match A.add start step s with
    | .exn v s => .exn v s
    | .ok start s => tryDown A start stop step s
  | .done, s => .stop s

/-- `for ... in` over a generator: the body runs for each value; `none` if there are more than `n` values. -/
def genLoop (A : Arith σ V L) (body : V → σ → Option (Out V × σ)) : Nat → Range V → σ → Option (Out V × σ)
  | 0, g, s =>
    match g.next A s with
    | .exn v s => some (.thr (A.wrap v), s)
    | .stop s => some (.normal, s)
    | .value _ _ _ => none
  | n + 1, g, s =>
    match g.next A s with
    | .exn v s => some (.thr (A.wrap v), s)
    | .stop s => some (.normal, s)
    | .value v g s => onward (body v s) fun s => genLoop A body n g s

/-- Arguments of a call are evaluated from left to right. -/
def evalArgs : List (Arg σ V L) → σ → Res σ V (List V)
  | [], s => .ok [] s
  | a :: as, s =>
    match a.eval s with
    | .exn v s => .exn v s
    | .ok v s =>
      match evalArgs as s with
      | .exn v s => .exn v s
      | .ok vs s => .ok (v :: vs) s

/-- The loop as it would be without the special treatment: call `range`, then loop over the generator. -/
def plainLoop (A : Arith σ V L) (body : V → σ → Option (Out V × σ)) (n : Nat) (args : List (Arg σ V L)) (s : σ) : Option (Out V × σ) :=
  match evalArgs args s with
  | .exn v s => some (.thr (A.wrap v), s)
  | .ok [] _ => none
  | .ok (v :: vs) s => genLoop A body n (.fresh v vs) s

end Verif.Ctl
