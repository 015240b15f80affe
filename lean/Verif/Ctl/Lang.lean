/-
Statements of Kos and their meaning.  This file is the specification of control flow; it uses nothing of the compiler.

Expressions are numbered and opaque: an expression either gives a value or throws, and may change the memory `σ`.  Expressions may read
the variables of the `catch` clauses around them, whose values are given in a list, innermost first; these variables are constants.
An expression ends.
-/
namespace Verif.Ctl

inductive Res (σ V α : Type)
  | ok (a : α) (s : σ)
  | exn (v : V) (s : σ)
  deriving DecidableEq, Repr

/-- Meaning of the parts which are opaque here. -/
structure Sem (σ V : Type) where
  /-- Expression `i`. -/
  expr   : Nat → List V → σ → Res σ V V
  truthy : V → Bool
  void   : V
  /-- `true` and `false` -/
  ofBool : Bool → V
  /-- The exception object made of a thrown value, core/kos_stack.c:582-635. -/
  wrap   : V → V
  /-- Advance the iterator of loop `i` and assign its variables; `false` at the end. -/
  next   : Nat → List V → σ → Res σ V Bool
  /-- Evaluate the expression of case `i` and compare it with the value of `switch`. -/
  same   : Nat → List V → V → σ → Res σ V Bool

/-- What is needed of values: exceptions are objects, which are true, and are not wrapped again. -/
structure Sem.Lawful {σ V : Type} (S : Sem σ V) : Prop where
  void : S.truthy S.void = false
  bool : ∀ b, S.truthy (S.ofBool b) = b
  wrapped : ∀ v, S.truthy (S.wrap v) = true
  again : ∀ v, S.wrap (S.wrap v) = S.wrap v

/-- A condition: a tree of `!`, `&&`, `||` over expressions.  `known` is the truth value of an expression which is a constant. -/
inductive Cond
  | leaf (i : Nat) (known : Option Bool)
  | not (c : Cond)
  | and (a b : Cond)
  | or (a b : Cond)
  deriving DecidableEq, Repr

inductive Kind
  | brk | cont | fall
  deriving DecidableEq, Repr

mutual
inductive Stmt
  | skip
  /-- An expression whose value is not used, an assignment etc. -/
  | act (i : Nat)
  | seq (a b : Stmt)
  | ite (c : Cond) (t : Stmt)
  | itee (c : Cond) (t e : Stmt)
  | while (c : Cond) (b : Stmt)
  | repeat (b : Stmt) (c : Cond)
  /-- `for ... in`: expression `i` creates the iterator, `next j` advances it. -/
  | forIn (i j : Nat) (b : Stmt)
  | switch (i : Nat) (cs : Cases)
  /-- `break`, `continue`, `fallthrough` -/
  | jump (k : Kind)
  | ret (i : Nat)
  | throw (i : Nat)
  /-- `assert`, where expression `k` is the message. -/
  | assert (c : Cond) (k : Nat)
  | tryCatch (b h : Stmt)
  /-- `defer` and `with`: `f` runs after `b`. -/
  | tryDefer (b f : Stmt)

/-- Cases of a `switch`: the test (`none` is `default`), the body, and whether the next body follows it. -/
inductive Cases
  | nil
  | cons (test : Option Nat) (b : Stmt) (ft : Bool) (rest : Cases)
end

deriving instance Repr for Stmt, Cases

variable {σ V : Type}

/-! ### Meaning -/

/-- The value of a condition, evaluated from left to right, and no further than needed. -/
def evalC (S : Sem σ V) (env : List V) : Cond → σ → Res σ V Bool
  | .leaf i _, s =>
    match S.expr i env s with
    | .ok v s => .ok (S.truthy v) s
    | .exn v s => .exn v s
  | .not c, s =>
    match evalC S env c s with
    | .ok b s => .ok (!b) s
    | .exn v s => .exn v s
  | .and a b, s =>
    match evalC S env a s with
    | .ok true s => evalC S env b s
    | r => r
  | .or a b, s =>
    match evalC S env a s with
    | .ok false s => evalC S env b s
    | r => r

/-- How a statement ends. -/
inductive Out (V : Type)
  | normal
  | jump (k : Kind)
  | ret (v : V)
  | thr (v : V)
  deriving DecidableEq, Repr

/-- `while`: at most `m` passes, `none` if they are not enough. -/
def loopW (S : Sem σ V) (cond : σ → Res σ V Bool) (body : σ → Option (Out V × σ)) : Nat → σ → Option (Out V × σ)
  | 0, _ => none
  | m + 1, s =>
    match cond s with
    | .exn v s => some (.thr (S.wrap v), s)
    | .ok false s => some (.normal, s)
    | .ok true s =>
      match body s with
      | none => none
      | some (.normal, s) => loopW S cond body m s
      | some (.jump .cont, s) => loopW S cond body m s
      | some (.jump .brk, s) => some (.normal, s)
      | some (o, s) => some (o, s)

/-- `repeat ... while`. -/
def loopR (S : Sem σ V) (cond : σ → Res σ V Bool) (body : σ → Option (Out V × σ)) : Nat → σ → Option (Out V × σ)
  | 0, _ => none
  | m + 1, s =>
    match body s with
    | none => none
    | some (.jump .brk, s) => some (.normal, s)
    | some (.jump .fall, s) => some (.jump .fall, s)
    | some (.ret v, s) => some (.ret v, s)
    | some (.thr v, s) => some (.thr v, s)
    | some (_, s) =>
      match cond s with
      | .exn v s => some (.thr (S.wrap v), s)
      | .ok false s => some (.normal, s)
      | .ok true s => loopR S cond body m s

/-- Which case is selected: the first one with an equal value. -/
def pick (S : Sem σ V) (env : List V) (v : V) : Cases → Nat → σ → Res σ V (Option Nat)
  | .nil, _, s => .ok none s
  | .cons none _ _ rest, k, s => pick S env v rest (k + 1) s
  | .cons (some i) _ _ rest, k, s =>
    match S.same i env v s with
    | .exn v s => .exn v s
    | .ok true s => .ok (some k) s
    | .ok false s => pick S env v rest (k + 1) s

/-- The position of `default`. -/
def dflt : Cases → Nat → Option Nat
  | .nil, _ => none
  | .cons none _ _ _, k => some k
  | .cons (some _) _ _ rest, k => dflt rest (k + 1)

mutual
/-- Run a statement; `none` if some loop makes more than `n` passes. -/
def exec (S : Sem σ V) (n : Nat) : Stmt → List V → σ → Option (Out V × σ)
  | .skip, _, s => some (.normal, s)
  | .act i, env, s =>
    match S.expr i env s with
    | .ok _ s => some (.normal, s)
    | .exn v s => some (.thr (S.wrap v), s)
  | .seq a b, env, s =>
    match exec S n a env s with
    | some (.normal, s) => exec S n b env s
    | r => r
  | .ite c t, env, s =>
    match evalC S env c s with
    | .exn v s => some (.thr (S.wrap v), s)
    | .ok true s => exec S n t env s
    | .ok false s => some (.normal, s)
  | .itee c t e, env, s =>
    match evalC S env c s with
    | .exn v s => some (.thr (S.wrap v), s)
    | .ok true s => exec S n t env s
    | .ok false s => exec S n e env s
  | .while c b, env, s => loopW S (evalC S env c) (fun s => exec S n b env s) n s
  | .repeat b c, env, s => loopR S (evalC S env c) (fun s => exec S n b env s) n s
  | .forIn i j b, env, s =>
    match S.expr i env s with
    | .exn v s => some (.thr (S.wrap v), s)
    | .ok _ s => loopW S (S.next j env) (fun s => exec S n b env s) n s
  | .switch i cs, env, s =>
    match S.expr i env s with
    | .exn v s => some (.thr (S.wrap v), s)
    | .ok v s =>
      match pick S env v cs 0 s with
      | .exn v s => some (.thr (S.wrap v), s)
      | .ok (some k) s => execAt S n cs k env s
      | .ok none s =>
        match dflt cs 0 with
        | some k => execAt S n cs k env s
        | none => some (.normal, s)
  | .jump k, _, s => some (.jump k, s)
  | .ret i, env, s =>
    match S.expr i env s with
    | .ok v s => some (.ret v, s)
    | .exn v s => some (.thr (S.wrap v), s)
  | .throw i, env, s =>
    match S.expr i env s with
    | .ok v s => some (.thr (S.wrap v), s)
    | .exn v s => some (.thr (S.wrap v), s)
  | .assert c k, env, s =>
    match evalC S env c s with
    | .exn v s => some (.thr (S.wrap v), s)
    | .ok true s => some (.normal, s)
    | .ok false s =>
      match S.expr k env s with
      | .ok v s => some (.thr (S.wrap v), s)
      | .exn v s => some (.thr (S.wrap v), s)
  | .tryCatch b h, env, s =>
    match exec S n b env s with
    | some (.thr v, s) => exec S n h (v :: env) s
    | r => r
  | .tryDefer b f, env, s =>
    match exec S n b env s with
    | none => none
    | some (o, s) =>
      match exec S n f env s with
      | some (.normal, s) => some (o, s)
      | r => r

/-- Run the bodies from case `k` on. -/
def execAt (S : Sem σ V) (n : Nat) : Cases → Nat → List V → σ → Option (Out V × σ)
  | .nil, _, _, s => some (.normal, s)
  | .cons _ _ _ rest, k + 1, env, s => execAt S n rest k env s
  | .cons _ b ft rest, 0, env, s =>
    match exec S n b env s with
    | none => none
    | some (.normal, s) => if ft then execAt S n rest 0 env s else some (.normal, s)
    | some (.jump .fall, s) => execAt S n rest 0 env s
    | some (.jump .brk, s) => some (.normal, s)
    | some (o, s) => some (o, s)
end

/-- A function with body `s` ends: by returning a value, or by an exception. -/
inductive Ends (S : Sem σ V) (b : Stmt) (s : σ) : Out V → σ → Prop
  | ret (n : Nat) (v : V) (s' : σ) : exec S n b [] s = some (.ret v, s') → Ends S b s (.ret v) s'
  | thr (n : Nat) (v : V) (s' : σ) : exec S n b [] s = some (.thr v, s') → Ends S b s (.thr v) s'
  /-- At the end of the body, `void` is returned. -/
  | fin (n : Nat) (s' : σ) : exec S n b [] s = some (.normal, s') → Ends S b s (.ret S.void) s'

/-- Constants in conditions are what they are said to be. -/
def Known (S : Sem σ V) : Cond → Prop
  | .leaf _ none => True
  | .leaf i (some b) => ∀ env s, ∃ v, S.expr i env s = .ok v s ∧ S.truthy v = b
  | .not c => Known S c
  | .and a b => Known S a ∧ Known S b
  | .or a b => Known S a ∧ Known S b

end Verif.Ctl
