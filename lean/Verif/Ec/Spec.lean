import Verif.Ec.Run

/-
  What expressions and assignments mean, without registers: the operands from left to
  right, then the operation.
-/

namespace Verif.Ec

variable {V W : Type}

/-- A computation: gives a value or throws one. -/
abbrev Comp (V W α : Type) := W → Except V α × W

def ret {α : Type} (a : α) : Comp V W α := fun w => (.ok a, w)

def andThen {α β : Type} (m : Comp V W α) (f : α → Comp V W β) : Comp V W β := fun w =>
  match m w with
  | (.ok a, w) => f a w
  | (.error x, w) => (.error x, w)

scoped infixl:55 " >>- " => andThen

/-- Values of the variables which are in registers. -/
abbrev Env (V : Type) := Nat → V

/-- The property named by a key, or the element of an index. -/
def keyVal (S : Sem V W) (k : Key) : V := S.const (.str k.str)
def idxVal (S : Sem V W) (i : Int) : V := S.const (.int i)

/-- Number of elements which an array has before they are stored: those in front of the
    first `...`, but not more than 127. -/
def fixedSize : Elems → Nat → Nat
  | _, 0 => 0
  | .nil, _ => 0
  | .cons x _ _ l, n + 1 => if x then 0 else fixedSize l n + 1

def Elems.hasExpand : Elems → Bool
  | .nil => false
  | .cons x _ _ l => if x then true else l.hasExpand

def Elems.count : Elems → Nat
  | .nil => 0
  | .cons _ _ _ l => 1 + l.count

inductive Kind
  | array (n : Nat)
  | defaults
  | object

/-- Element `i` with value `v` goes into `c`. -/
def put (S : Sem V W) (m : Kind) (c : V) (i : Nat) (expand : Bool) (k : Key) (v : V) : Comp V W V :=
  match m with
  | .object => S.prim .set [c, keyVal S k, v]
  | .defaults => S.prim .set [c, idxVal S i, v]
  | .array n =>
    if i < n then S.prim .set [c, idxVal S i, v]
    else if expand then S.prim .pushEx [c, v] else S.prim .push [c, v]

/-- Result of a callee: the function and the object. -/
def callWith (S : Sem V W) (f : V × Option V) (args : List V) : Comp V W V :=
  match f.2 with
  | some o => S.prim .callN (f.1 :: o :: args)
  | none => S.prim .callFun (f.1 :: args)

def objOf (S : Sem V W) (f : V × Option V) : V := f.2.getD (S.const .void)

/-- A call with few arguments, without `...` and names. -/
def plain (named : Bool) (l : Elems) : Bool := !named && !l.hasExpand && l.count ≤ 4

mutual
/-- `this` is the variable in which the object is. -/
def Expr.eval (S : Sem V W) (this : Nat) (ρ : Env V) : Expr → Comp V W V
  | .lit c => ret (S.const c)
  | .this => ret (ρ this)
  | .local x => ret (ρ x)
  | .var g _ => S.prim (.getVar g) []
  | .neg e => e.eval S this ρ >>- fun v => S.prim .sub [S.const (.int 0), v]
  | .pos e => e.eval S this ρ
  | .not twice e => e.eval S this ρ >>- fun v => ret (S.const (.bool (S.truthy v == twice)))
  | .logic isAnd a b => a.eval S this ρ >>- fun v => if S.truthy v == isAnd then b.eval S this ρ else ret v
  | .cond c a b => c.test S this ρ >>- fun q => if q then a.eval S this ρ else b.eval S this ρ
  | .unary n e => e.eval S this ρ >>- fun v => S.prim (.op n) [v]
  | .binary n swap a b => a.eval S this ρ >>- fun v => b.eval S this ρ >>- fun u =>
      S.prim (.op n) (if swap then [u, v] else [v, u])
  | .has deep e k => e.eval S this ρ >>- fun v => S.prim (.has deep) [v, keyVal S k]
  | .prop opt e k => e.eval S this ρ >>- fun v => S.prim (.get opt) [v, keyVal S k]
  | .elem opt e i => e.eval S this ρ >>- fun v => S.prim (.get opt) [v, idxVal S i]
  | .index opt e k => e.eval S this ρ >>- fun v => k.eval S this ρ >>- fun u => S.prim (.get opt) [v, u]
  | .slice e b f => e.eval S this ρ >>- fun v => b.eval S this ρ >>- fun u => f.eval S this ρ >>- fun x =>
      S.prim .getRange [v, u, x]
  | .yield e => e.eval S this ρ >>- fun v => S.prim .yield [v]
  | .array l => S.prim (.newArray (fixedSize l 127)) [] >>- fun c =>
      l.fill S this ρ (.array (fixedSize l 127)) c 0 >>- fun _ => ret c
  | .object l => S.prim .newObj [] >>- fun c => l.fill S this ρ .object c 0 >>- fun _ => ret c
  | .func f _ l => S.prim (.func f) [] >>- fun g =>
      if l.count = 0 then ret g
      else S.prim (.newArray l.count) [] >>- fun a => l.fill S this ρ .defaults a 0 >>- fun _ =>
        S.prim .bindDefaults [g, a] >>- fun _ => ret g
  | .call f named l => f.eval S this ρ >>- fun g =>
      if plain named l then l.vals S this ρ >>- callWith S g
      else (if named then S.prim .newObj [] >>- fun c => l.fill S this ρ .object c 0 >>- fun _ => ret c
        else S.prim (.newArray (fixedSize l 127)) [] >>- fun c =>
          l.fill S this ρ (.array (fixedSize l 127)) c 0 >>- fun _ => ret c) >>- fun a =>
        S.prim .call [g.1, objOf S g, a]
  -- calls the method `async` of the function with the object and the arguments
  | .async f named l => f.eval S this ρ >>- fun g =>
      (if named then S.prim .newObj [] >>- fun c => l.fill S this ρ .object c 0 >>- fun _ => ret c
        else S.prim (.newArray (fixedSize l 127)) [] >>- fun c =>
          l.fill S this ρ (.array (fixedSize l 127)) c 0 >>- fun _ => ret c) >>- fun a =>
      S.prim (.get false) [g.1, S.const (.str strAsync)] >>- fun h =>
      S.prim .callN [h, g.1, objOf S g, a]
def Elems.fill (S : Sem V W) (this : Nat) (ρ : Env V) (m : Kind) (c : V) (i : Nat) : Elems → Comp V W Unit
  | .nil => ret ()
  | .cons x k e l => e.eval S this ρ >>- fun v => put S m c i x k v >>- fun _ => l.fill S this ρ m c (i + 1)
def Elems.vals (S : Sem V W) (this : Nat) (ρ : Env V) : Elems → Comp V W (List V)
  | .nil => ret []
  | .cons _ _ e l => e.eval S this ρ >>- fun v => l.vals S this ρ >>- fun vs => ret (v :: vs)
def Callee.eval (S : Sem V W) (this : Nat) (ρ : Env V) : Callee → Comp V W (V × Option V)
  | .fn e => e.eval S this ρ >>- fun v => ret (v, none)
  | .prop opt e k => e.eval S this ρ >>- fun v => S.prim (.get opt) [v, keyVal S k] >>- fun f => ret (f, some v)
  | .elem opt e i => e.eval S this ρ >>- fun v => S.prim (.get opt) [v, idxVal S i] >>- fun f => ret (f, some v)
  | .index opt e k => e.eval S this ρ >>- fun v => k.eval S this ρ >>- fun u =>
      S.prim (.get opt) [v, u] >>- fun f => ret (f, some v)
  | .module g => S.prim (.getVar g) [] >>- fun v => ret (v, none)
def Cond.test (S : Sem V W) (this : Nat) (ρ : Env V) : Cond → Comp V W Bool
  | .val e => e.eval S this ρ >>- fun v => ret (S.truthy v)
  | .not c => c.test S this ρ >>- fun q => ret (!q)
  | .logic isAnd a b => a.test S this ρ >>- fun q => if q == isAnd then b.test S this ρ else ret q
end

/-- The new value of a target: `v`, or the old value combined with `v`. -/
def combine (S : Sem V W) (op : Option Nat) (old : Comp V W V) (v : V) : Comp V W V :=
  match op with
  | none => ret v
  | some n => old >>- fun u => S.prim (.op n) [u, v]

/-- Assigns `v`; the variables afterwards. -/
def Target.set (S : Sem V W) (this : Nat) (ρ : Env V) (op : Option Nat) (v : V) : Target → Comp V W (Env V)
  | .local x => combine S op (ret (ρ x)) v >>- fun u => ret (upd ρ x u)
  | .var g => combine S op (S.prim (.getVar g) []) v >>- fun u => S.prim (.setVar g) [u] >>- fun _ => ret ρ
  | .prop e k => e.eval S this ρ >>- fun o => combine S op (S.prim (.get false) [o, keyVal S k]) v >>- fun u =>
      S.prim .set [o, keyVal S k, u] >>- fun _ => ret ρ
  | .elem e i => e.eval S this ρ >>- fun o => combine S op (S.prim (.get false) [o, idxVal S i]) v >>- fun u =>
      S.prim .set [o, idxVal S i, u] >>- fun _ => ret ρ
  | .index e k => e.eval S this ρ >>- fun o => k.eval S this ρ >>- fun p =>
      combine S op (S.prim (.get false) [o, p]) v >>- fun u => S.prim .set [o, p, u] >>- fun _ => ret ρ
  -- calls the method `insert`; the bounds are evaluated before the object
  | .slice e b f => b.eval S this ρ >>- fun p => f.eval S this ρ >>- fun q => e.eval S this ρ >>- fun o =>
      S.prim (.get false) [o, S.const (.str strInsert)] >>- fun h => S.prim .callN [h, o, p, q, v] >>- fun _ => ret ρ
  | .none => ret ρ

/-- The targets of an assignment of several values get them one after another. -/
def setAll (S : Sem V W) (this : Nat) (it : V) : List Target → Env V → W → Except V Unit × Env V × W
  | [], ρ, w => (.ok (), ρ, w)
  | g :: l, ρ, w =>
    match (S.prim .next [it] >>- fun v => g.set S this ρ none v) w with
    | (.ok ρ, w) => setAll S this it l ρ w
    | (.error x, w) => (.error x, ρ, w)

/-- What a statement does to the variables and the rest. -/
def Stmt.exec (S : Sem V W) (this : Nat) : Stmt → Env V → W → Except V Unit × Env V × W
  | .expr e, ρ, w =>
    match e.eval S this ρ w with
    | (.ok _, w) => (.ok (), ρ, w)
    | (.error x, w) => (.error x, ρ, w)
  | .assign op g e, ρ, w =>
    match (e.eval S this ρ >>- fun v => g.set S this ρ op v) w with
    | (.ok ρ, w) => (.ok (), ρ, w)
    | (.error x, w) => (.error x, ρ, w)
  | .multi l e, ρ, w =>
    match (e.eval S this ρ >>- fun v => S.prim .newIter [v]) w with
    | (.ok it, w) => setAll S this it l ρ w
    | (.error x, w) => (.error x, ρ, w)

/-! ## Which variables an expression reads -/

mutual
def Expr.reads (this x : Nat) : Expr → Bool
  | .lit _ | .var _ _ => false
  | .this => x = this
  | .local y => x = y
  | .neg e | .pos e | .not _ e | .unary _ e | .has _ e _ | .prop _ e _ | .elem _ e _ | .yield e => e.reads this x
  | .logic _ a b | .binary _ _ a b | .index _ a b => a.reads this x || b.reads this x
  | .cond c a b => c.reads this x || a.reads this x || b.reads this x
  | .slice a b c => a.reads this x || b.reads this x || c.reads this x
  | .array l | .object l | .func _ _ l => l.reads this x
  | .call f _ l | .async f _ l => f.reads this x || l.reads this x
def Elems.reads (this x : Nat) : Elems → Bool
  | .nil => false
  | .cons _ _ e l => e.reads this x || l.reads this x
def Callee.reads (this x : Nat) : Callee → Bool
  | .fn e | .prop _ e _ | .elem _ e _ => e.reads this x
  | .index _ e k => e.reads this x || k.reads this x
  | .module _ => false
def Cond.reads (this x : Nat) : Cond → Bool
  | .val e => e.reads this x
  | .not c => c.reads this x
  | .logic _ a b => a.reads this x || b.reads this x
end

def Callee.isLocal : Callee → Bool
  | .fn (.local _) => true
  | _ => false

def Callee.isModule : Callee → Bool
  | .module _ => true
  | _ => false

/- Expressions which overwrite the variable `x` they are assigned to and read it
   afterwards: `x = {a: x}`, `x = fun(a = x) {}`, `x = async x.f()`, `x = async g(x)`. -/
mutual
def Expr.clob (this x : Nat) : Expr → Bool
  | .neg e | .pos e | .has _ e _ | .yield e => e.clob this x
  | .cond _ a b => a.clob this x || b.clob this x
  | .object l | .func _ _ l => l.reads this x
  | .async f _ l => f.clob this x || (l.reads this x && !f.isLocal)
  | _ => false
def Callee.clob (this x : Nat) : Callee → Bool
  | .fn e => e.clob this x
  | .prop _ e _ | .elem _ e _ | .index _ e _ => e.reads this x
  | .module _ => false
end

/- `async module.function()`, anywhere. -/
mutual
def Expr.modAsync : Expr → Bool
  | .lit _ | .this | .local _ | .var _ _ => false
  | .neg e | .pos e | .not _ e | .unary _ e | .has _ e _ | .prop _ e _ | .elem _ e _ | .yield e => e.modAsync
  | .logic _ a b | .binary _ _ a b | .index _ a b => a.modAsync || b.modAsync
  | .cond c a b => c.modAsync || a.modAsync || b.modAsync
  | .slice a b c => a.modAsync || b.modAsync || c.modAsync
  | .array l | .object l | .func _ _ l => l.modAsync
  | .call f _ l => f.modAsync || l.modAsync
  | .async f _ l => f.isModule || f.modAsync || l.modAsync
def Elems.modAsync : Elems → Bool
  | .nil => false
  | .cons _ _ e l => e.modAsync || l.modAsync
def Callee.modAsync : Callee → Bool
  | .fn e | .prop _ e _ | .elem _ e _ => e.modAsync
  | .index _ e k => e.modAsync || k.modAsync
  | .module _ => false
def Cond.modAsync : Cond → Bool
  | .val e => e.modAsync
  | .not c => c.modAsync
  | .logic _ a b => a.modAsync || b.modAsync
end

/-- A variable, `this`, or one of them with `+` in front. -/
def Expr.still : Expr → Bool
  | .this | .local _ => true
  | .pos e => e.still
  | _ => false

/-- Expressions which write the variable they are assigned to only when nothing can be
    thrown any more. -/
def Expr.late (sib : Bool) : Expr → Bool
  | .neg e | .yield e => e.still
  | .has _ e k => e.still && !k.far
  | .pos e => e.late false
  | .cond _ a b => a.late b.ids && b.late false
  | .prop _ _ k => !k.far
  | .array l => l.ids || l.count = 0
  | .object l | .func _ _ l => l.count = 0
  | .call f named l => plain named l || sib || f.ids || l.ids
  | .async _ _ _ => false
  | _ => true

/-! ## The same for statements -/

def Target.reads (this x : Nat) : Target → Bool
  | .prop e _ | .elem e _ => e.reads this x
  | .index a b => a.reads this x || b.reads this x
  | .slice a b c => a.reads this x || b.reads this x || c.reads this x
  | _ => false

def Target.modAsync : Target → Bool
  | .prop e _ | .elem e _ => e.modAsync
  | .index a b => a.modAsync || b.modAsync
  | .slice a b c => a.modAsync || b.modAsync || c.modAsync
  | _ => false

/-- Is `x` what is assigned to? -/
def Target.isVar (x : Nat) : Target → Bool
  | .local y => x = y
  | _ => false

def Stmt.targets : Stmt → List Target
  | .expr _ => []
  | .assign _ g _ => [g]
  | .multi l _ => l

def Stmt.value : Stmt → Expr
  | .expr e | .assign _ _ e | .multi _ e => e

/-- All variables are in registers `vars`; none of those assigned to is `this`. -/
structure Stmt.Wf (vars : Nat → Bool) (this : Nat) (s : Stmt) : Prop where
  value : ∀ x, s.value.reads this x = true → vars x = true
  targets : ∀ g ∈ s.targets, ∀ x, g.reads this x = true → vars x = true
  written : ∀ g ∈ s.targets, ∀ x, g.isVar x = true → vars x = true ∧ x ≠ this

/-- `async module.function()` is nowhere in it. -/
structure Stmt.NoModAsync (s : Stmt) : Prop where
  value : s.value.modAsync = false
  targets : ∀ g ∈ s.targets, g.modAsync = false

/-- `x = …` where `x` is read after it is overwritten. -/
def Stmt.clob (this : Nat) : Stmt → Bool
  | .assign none (.local x) e => e.clob this x
  | _ => false

/-- The variable which may have changed already when something is thrown: `x` in `x = …`,
    for some expressions. -/
def Stmt.early (x : Nat) : Stmt → Bool
  | .assign none (.local y) e => x = y && !e.late false
  | _ => false

/-- Statements one after another, up to the first one which throws; that one too is
    in the result. -/
def execAll (S : Sem V W) (this : Nat) : List Stmt → Env V → W → Except (V × Stmt) Unit × Env V × W
  | [], ρ, w => (.ok (), ρ, w)
  | s :: l, ρ, w =>
    match s.exec S this ρ w with
    | (.ok _, ρ, w) => execAll S this l ρ w
    | (.error x, ρ, w) => (.error (x, s), ρ, w)

end Verif.Ec
