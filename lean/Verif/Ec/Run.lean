import Verif.Ec.Model

/-
  What the code does.  Values, the rest of the program and the instructions are
  arbitrary: an instruction gets the values of its operands and returns a value or
  throws one, and may change everything but the registers of the function.  Variables
  of which a function has a reference are not in registers (C77).
  core/kos_vm.c writes the destination after the instruction has succeeded.
-/

namespace Verif.Ec

structure Sem (V W : Type) where
  const : Const → V
  truthy : V → Bool
  prim : Prim → List V → W → Except V V × W

variable {V W : Type}

def Operand.val (S : Sem V W) (ρ : Nat → V) : Operand → V
  | .reg r => ρ r
  | .imm c => S.const c

abbrev Regs (V : Type) := Nat → V

mutual
def Code.run (S : Sem V W) : Code → Regs V → W → Except V Unit × Regs V × W
  | .skip, ρ, w => (.ok (), ρ, w)
  | .load d c, ρ, w => (.ok (), upd ρ d (S.const c), w)
  | .move d s, ρ, w => (.ok (), upd ρ d (ρ s), w)
  | .op p d l, ρ, w =>
    match S.prim p (l.map (Operand.val S ρ)) w with
    | (.ok v, w) => (.ok (), upd ρ d v, w)
    | (.error x, w) => (.error x, ρ, w)
  | .eff p l, ρ, w =>
    match S.prim p (l.map (Operand.val S ρ)) w with
    | (.ok _, w) => (.ok (), ρ, w)
    | (.error x, w) => (.error x, ρ, w)
  | .seq a b, ρ, w =>
    match a.run S ρ w with
    | (.ok _, ρ, w) => b.run S ρ w
    | r => r
  | .ite r a b, ρ, w => if S.truthy (ρ r) then a.run S ρ w else b.run S ρ w
  | .cond q a b, ρ, w =>
    match q.run S ρ w with
    | (.ok true, ρ, w) => a.run S ρ w
    | (.ok false, ρ, w) => b.run S ρ w
    | (.error x, ρ, w) => (.error x, ρ, w)
def Test.run (S : Sem V W) : Test → Regs V → W → Except V Bool × Regs V × W
  | .val c r, ρ, w =>
    match c.run S ρ w with
    | (.ok _, ρ, w) => (.ok (S.truthy (ρ r)), ρ, w)
    | (.error x, ρ, w) => (.error x, ρ, w)
  | .not q, ρ, w =>
    match q.run S ρ w with
    | (.ok b, ρ, w) => (.ok (!b), ρ, w)
    | r => r
  | .and p q, ρ, w =>
    match p.run S ρ w with
    | (.ok true, ρ, w) => q.run S ρ w
    | r => r
  | .or p q, ρ, w =>
    match p.run S ρ w with
    | (.ok false, ρ, w) => q.run S ρ w
    | r => r
end

end Verif.Ec
