/-
  What programs with nested functions mean.

  This does not mention how programs are compiled: a function literal gives a
  function together with the calls of outer functions during which it was
  evaluated, and a variable of an outer function is a variable of that call.
-/
import Verif.Clos.Ast
import Verif.Clos.Sem

namespace Verif.Clos

inductive MVal where
  | num (n : Int)
  | clo (F p : Nat) (body : E) (calls : List Nat)

/-- Values of variables in each call, number of calls so far. -/
structure MMem where
  vars : Nat → Nat → Option MVal
  calls : Nat

inductive MRes where
  | ok (v : MVal) (m : MMem)
  | err
  | out

def MMem.write (m : MMem) (c v : Nat) (x : MVal) : MMem :=
  { m with vars := fun c' v' => if c' = c ∧ v' = v then some x else m.vars c' v' }

def MVal.true? : MVal → Bool
  | .num n => n ≠ 0
  | .clo _ _ _ _ => true

def MRes.bind (x : MRes) (f : MVal → MMem → MRes) : MRes :=
  match x with
  | .ok v m => f v m
  | .err => .err
  | .out => .out

/-- `calls` are the current call and the calls of outer functions. -/
def mean : Nat → List Nat → E → MMem → MRes
  | 0, _, _, _ => .out
  | _ + 1, _, .num n, m => .ok (.num n) m
  | _ + 1, calls, .ref _ i v, m =>
    match calls[i]? with
    | none => .err
    | some c =>
      match m.vars c v with
      | none => .err
      | some x => .ok x m
  | n + 1, calls, .set i v e, m =>
    (mean n calls e m).bind (fun x m1 =>
      match calls[i]? with
      | none => .err
      | some c => .ok x (m1.write c v x))
  | n + 1, calls, .add a b, m =>
    (mean n calls a m).bind (fun x m1 =>
      (mean n calls b m1).bind (fun y m2 =>
        match x, y with
        | .num k, .num l => .ok (.num (k + l)) m2
        | _, _ => .err))
  | n + 1, calls, .seq a b, m => (mean n calls a m).bind (fun _ m1 => mean n calls b m1)
  | n + 1, calls, .ite c a b, m =>
    (mean n calls c m).bind (fun x m1 => if x.true? then mean n calls a m1 else mean n calls b m1)
  | n + 1, calls, .whl c b, m =>
    (mean n calls c m).bind (fun x m1 =>
      if x.true? then (mean n calls b m1).bind (fun _ m2 => mean n calls (.whl c b) m2)
      else .ok x m1)
  | n + 1, calls, .call f a, m =>
    (mean n calls f m).bind (fun g m1 =>
      (mean n calls a m1).bind (fun x m2 =>
        match g with
        | .num _ => .err
        | .clo _ p b outer =>
          mean n (m2.calls :: outer) b
            (MMem.write { m2 with calls := m2.calls + 1 } m2.calls p x)))
  | _ + 1, calls, .fn F p b, m => .ok (.clo F p b calls) m
  | n + 1, calls, .letv v e rest, m =>
    (mean n calls e m).bind (fun x m1 =>
      match calls with
      | [] => .err
      | c :: _ => mean n calls rest (m1.write c v x))
  | n + 1, calls, .letf v F p b rest, m =>
    match calls with
    | [] => .err
    | c :: _ => mean n calls rest (m.write c v (.clo F p b calls))

/-- What is seen of the meaning of a program. -/
def MRes.obs : MRes → Obs
  | .ok (.num n) _ => .num n
  | .ok (.clo _ _ _ _) _ => .function
  | .err => .err
  | .out => .out

/-- What a program does within `n` steps; call 0 is that of the global scope. -/
def meaning (n : Nat) (P : E) : Obs :=
  (mean n [0] P { vars := fun _ _ => none, calls := 1 }).obs

/-! `eval` with nothing shared does the same -/

def MVal.conv : MVal → Val
  | .num n => .num n
  | .clo F p b e => .clo F p b e

def MMem.conv (m : MMem) : Mem where
  mem := fun φ v => (m.vars φ v).map MVal.conv
  next := m.calls
  bound := fun _ => none

def MRes.conv : MRes → Res
  | .ok v m => .ok v.conv m.conv
  | .err => .err
  | .out => .out

theorem conv_write (m : MMem) (c v : Nat) (x : MVal) :
    (m.write c v x).conv = store m.conv c v x.conv := by
  unfold MMem.write MMem.conv store
  congr 1
  funext c' v'
  simp only
  split <;> rfl

theorem conv_bind {x : MRes} {y : Res} {f : MVal → MMem → MRes} {g : Val → Mem → Res}
    (h : y = x.conv) (hf : ∀ v m, g v.conv m.conv = (f v m).conv) :
    y.bind g = (x.bind f).conv := by
  subst h
  cases x with
  | ok v m => exact hf v m
  | err => rfl
  | out => rfl

theorem conv_true (x : MVal) : truthy x.conv = x.true? := by cases x <;> rfl

theorem eval_mean (tab : Table) : ∀ (n : Nat) (env : List Nat) (e : E) (m : MMem),
    eval (fun _ => false) (fun _ => false) tab n env e m.conv = (mean n env e m).conv := by
  intro n
  induction n with
  | zero => intro env e m; rfl
  | succ n ih =>
    intro env e m
    cases e with
    | num k => rfl
    | ref r i v =>
      rw [eval, mean]
      unfold evalRef readVar
      simp only [Bool.false_eq_true, if_false]
      cases h : env[i]? with
      | none => rfl
      | some c =>
        simp only
        show (match (m.vars c v).map MVal.conv with
          | some x => Res.ok x m.conv
          | none => .err) = _
        cases h2 : m.vars c v with
        | none => rfl
        | some x => rfl
    | set i v e =>
      rw [eval, mean]
      refine conv_bind (ih env e m) ?_
      intro x m1
      unfold writeVar
      cases h : env[i]? with
      | none => rfl
      | some c => simp only [MRes.conv, conv_write]
    | add a b =>
      rw [eval, mean]
      refine conv_bind (ih env a m) ?_
      intro x m1
      refine conv_bind (ih env b m1) ?_
      intro y m2
      cases x <;> cases y <;> rfl
    | seq a b =>
      rw [eval, mean]
      exact conv_bind (ih env a m) (fun x m1 => ih env b m1)
    | ite c a b =>
      rw [eval, mean]
      refine conv_bind (ih env c m) ?_
      intro x m1
      simp only [conv_true]
      split
      · exact ih env a m1
      · exact ih env b m1
    | whl c b =>
      rw [eval, mean]
      refine conv_bind (ih env c m) ?_
      intro x m1
      simp only [conv_true]
      split
      · exact conv_bind (ih env b m1) (fun _ m2 => ih env (.whl c b) m2)
      · rfl
    | call f a =>
      rw [eval, mean]
      refine conv_bind (ih env f m) ?_
      intro g m1
      refine conv_bind (ih env a m1) ?_
      intro x m2
      cases g with
      | num k => rfl
      | clo F p b outer =>
        have h := ih (m2.calls :: outer) b
          (MMem.write { m2 with calls := m2.calls + 1 } m2.calls p x)
        rw [conv_write] at h
        exact h
    | fn F p b => rfl
    | letv v e rest =>
      rw [eval, mean]
      refine conv_bind (ih env e m) ?_
      intro x m1
      cases env with
      | nil => rfl
      | cons c cs =>
        have h := ih (c :: cs) rest (m1.write c v x)
        rw [conv_write] at h
        exact h
    | letf v F p b rest =>
      cases env with
      | nil => rfl
      | cons c cs =>
        have h := ih (c :: cs) rest (m.write c v (.clo F p b (c :: cs)))
        rw [conv_write] at h
        exact h

theorem obs_conv (x : MRes) : x.conv.obs = x.obs := by
  cases x with
  | ok v m => cases v <;> rfl
  | err => rfl
  | out => rfl

theorem meaning_eq (tab : Table) (n : Nat) (P : E) :
    (eval (fun _ => false) (fun _ => false) tab n [0] P Mem.start).obs = meaning n P := by
  unfold meaning
  rw [← obs_conv, ← eval_mean tab]
  rfl

end Verif.Clos
