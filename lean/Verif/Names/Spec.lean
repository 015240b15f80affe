import Verif.Names.Ast
/-
  What a name means, after doc/design.md ("Scope", 13-24) and doc/grammar.md:
  a name refers to the innermost declaration visible where it is used.

  This is independent of the model of the compiler: no scopes, no stack and no
  activation, just the list of the visible declarations.
-/
namespace Verif.Names.Spec

open Verif.Names

/-- A visible declaration. -/
structure Bind where
  name  : Nat
  node  : Nat
  kind  : Kind
  /-- functions around the declaration, the innermost first -/
  funs  : List Nat
  deriving DecidableEq, Repr

/-- A use of a name. -/
structure Ref where
  use   : Nat
  decl  : Bind
  /-- functions around the use -/
  funs  : List Nat
  deriving DecidableEq, Repr

/-- Functions around the use which are not around the declaration. -/
def Ref.crossed (r : Ref) : List Nat := r.funs.take (r.funs.length - r.decl.funs.length)

/-- The visible declarations, the innermost and latest first, and the names
    declared so far in the current block. -/
structure Vis where
  binds : List Bind
  here  : List Nat
  deriving DecidableEq, Repr

def look (bs : List Bind) (x : Nat) : Option Bind := bs.find? (fun b => b.name = x)

/-- Names which are declared together: no name twice in one block. -/
def fresh : List Decl → List Nat → Except Err (List Nat)
  | [], h => .ok h
  | d :: r, h => if d.name ∈ h then .error (.redefined d.node) else fresh r (d.name :: h)

def bindAll (k : Kind) (fs : List Nat) : List Decl → List Bind → List Bind
  | [], bs => bs
  | d :: r, bs => bindAll k fs r (⟨d.name, d.node, k, fs⟩ :: bs)

/-- A function literal or a method sees the name of the constant it is the value of. -/
def isMethod : E → Bool
  | .fn .. => true
  | .mem .. => true
  | _ => false

/-- The meaning of names: `fs` are the functions around, `self` is the constant
    whose value is the function literal or class literal. -/
def resolve : Option Bind → List Nat → E → Vis → Except Err (Vis × List Ref)
  | _, _, .nop, v => .ok (v, [])
  | _, fs, .op a b, v => do
    let (v, r) ← resolve none fs a v
    let (v, q) ← resolve none fs b v
    return (v, r ++ q)
  | _, fs, .use n x, v =>
    match look v.binds x with
    | none => .error (.undefined n)
    | some b => .ok (v, [⟨n, b, fs⟩])
  | _, fs, .asg n x e, v =>
    match look v.binds x with
    | none => .error (.undefined n)
    | some b =>
      if b.kind.const then .error (.constAssign n)
      else do
        let (v, q) ← resolve none fs e v
        return (v, ⟨n, b, fs⟩ :: q)
  | _, fs, .decl k xs e, v => do
    let h ← fresh xs v.here
    -- the new names are not visible in their own value
    let (v, r) ← resolve none fs e ⟨v.binds, h⟩
    return (⟨bindAll k fs xs v.binds, v.here⟩, r)
  | _, fs, .self k x e, v => do
    let h ← fresh [x] v.here
    -- but the name of a constant function is visible in the function
    let (v, r) ← resolve (some ⟨x.name, x.node, k, fs⟩) fs e ⟨v.binds, h⟩
    return (⟨bindAll k fs [x] v.binds, v.here⟩, r)
  | self, fs, .fn f ps body defs, v => do
    let _ ← fresh ps []
    let (_, r) ← resolve none (f :: fs) body
      ⟨bindAll ⟨false, false⟩ (f :: fs) ps (self.toList ++ v.binds), []⟩
    -- parameters are not visible in the default values
    let (v, q) ← resolve none fs defs v
    return (v, r ++ q)
  | self, fs, .cls ext ms, v => do
    let (v, r) ← resolve none fs ext v
    let (v, q) ← resolve (if isMethod ms then self else none) fs ms v
    return (v, r ++ q)
  | self, fs, .mem a b, v => do
    let (v, r) ← resolve (if isMethod a then self else none) fs a v
    let (v, q) ← resolve (if isMethod b then self else none) fs b v
    return (v, r ++ q)
  | _, fs, .scope d e, v => do
    -- the statements behind `defer` are in the same block
    let (_, r) ← resolve none fs e ⟨v.binds, if d then v.here else []⟩
    return (v, r)
  | _, fs, .catch c x h, v => do
    let here ← fresh [x] v.here
    let (_, r) ← resolve none fs h ⟨⟨x.name, x.node, ⟨c, false⟩, fs⟩ :: v.binds, []⟩
    return (⟨v.binds, here⟩, r)

def globals (gs : List (Decl × Bool)) : List Bind :=
  gs.map (fun g => ⟨g.1.name, g.1.node, ⟨g.2, true⟩, []⟩)

/-- The meaning of all names in a module. -/
def program (gs : List (Decl × Bool)) (e : E) : Except Err (List Ref) :=
  match resolve none [] e ⟨globals gs, gs.map (fun g => g.1.name)⟩ with
  | .ok (_, r) => .ok r
  | .error e => .error e

end Verif.Names.Spec
