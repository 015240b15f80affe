import Verif.Str.Ops

/-
Comparison of values: core/kos_utils.c:1429-1610 and the comparison instructions of the virtual machine.

A `KOS_OBJ_ID` is a number: an even one is a small integer, an odd one the address of an object plus one (inc/kos_entity.h:52-60, 64-bit
build).  The heap gives the object at an address.  Floating-point numbers and the locale are parameters.  Arrays do not change while
they are compared.
-/
namespace Verif.Utils

/-- `KOS_COMPARE_RESULT`, inc/kos_utils.h:32-37. -/
inductive Cmp
  | equal | less | greater | indeterminate
  deriving DecidableEq, Repr

/-- Floating-point numbers: conversion from an integer, `x != x` and `x < y`. -/
structure Floats where
  F : Type
  ofInt : Int → F
  isNan : F → Bool
  lt : F → F → Bool

/-- Objects.  `other ty`: object, function, class or module, which are compared by address. -/
inductive Obj (F : Type)
  | integer (n : Int)
  | float (f : F)
  | void
  | bool (b : Bool)
  | str (s : Str.S)
  | arr (es : List Int)
  | buf (bytes : List Nat)
  | other (ty : Nat)

structure Mem where
  fl : Floats
  /-- Order of characters in the locale. -/
  coll : Nat → Nat → Int
  heap : Int → Obj fl.F

/-- Entity types, inc/kos_entity.h:19-35. -/
def Obj.type {F : Type} : Obj F → Nat
  | .integer _ => 2
  | .float _ => 4
  | .void => 6
  | .bool _ => 8
  | .str _ => 10
  | .arr _ => 14
  | .buf _ => 16
  | .other ty => ty

/-- `GET_OBJ_TYPE`, inc/kos_entity.h:121-125. -/
def objType (m : Mem) (a : Int) : Nat := if a % 2 = 0 then 0 else (m.heap a).type

/-- core/kos_utils.c:1429-1434. -/
def compareInt (a b : Int) : Cmp := if a < b then .less else if a > b then .greater else .equal

/-- The value of an integer object, core/kos_utils.c:1566-1571; `GET_SMALL_INT` divides by two. -/
def intOf (m : Mem) (a : Int) : Int :=
  if a % 2 = 0 then a / 2
  else match m.heap a with
    | .integer n => n
    | _ => 0

/-- core/kos_utils.c:1436-1444 `get_float`. -/
def floatOf (m : Mem) (a : Int) : m.fl.F :=
  if a % 2 = 0 then m.fl.ofInt (a / 2)
  else match m.heap a with
    | .integer n => m.fl.ofInt n
    | .float f => f
    | _ => m.fl.ofInt 0

/-- core/kos_utils.c:1446-1457 `compare_float`. -/
def compareFloat (m : Mem) (a b : Int) : Cmp :=
  let x := floatOf m a
  let y := floatOf m b
  if m.fl.isNan x || m.fl.isNan y then .indeterminate
  else if m.fl.lt x y then .less else if m.fl.lt y x then .greater else .equal

/-- The sign of the result of `memcmp` for as many bytes as both buffers have. -/
def memcmp : List Nat → List Nat → Int
  | x :: xs, y :: ys => if x < y then -1 else if x > y then 1 else memcmp xs ys
  | _, _ => 0

/-- core/kos_utils.c:1519-1536 `compare_buf`. -/
def compareBuf (xs ys : List Nat) : Cmp :=
  let cmp := memcmp xs ys
  if cmp ≠ 0 then (if cmp > 0 then .greater else .less)
  else if xs.length < ys.length then .less else if xs.length > ys.length then .greater else .equal

/-- The check for recursive arrays, core/kos_utils.c:1488-1501. -/
def checkRefs (a b : Int) : List (Int × Int) → Option Cmp
  | [] => none
  | (ra, rb) :: refs =>
    if a = ra ∧ b = rb then some .equal
    else if a = ra ∨ b = rb ∨ a = rb ∨ b = ra then some (compareInt a b)
    else checkRefs a b refs

/-- The loop in core/kos_utils.c:1503-1511: the elements of both arrays in pairs.  `some equal`: no difference found. -/
def compareElems (f : Int → Int → Option Cmp) : List Int → List Int → Option Cmp
  | x :: xs, y :: ys =>
    match f x y with
    | none => none
    | some .equal => compareElems f xs ys
    | some c => some c
  | _, _ => some .equal

/-- core/kos_utils.c:1470-1517 `compare_array`; `f` compares elements with `this_ref` added to `refs`. -/
def compareArray (f : Int → Int → Option Cmp) (refs : List (Int × Int)) (a b : Int) (xs ys : List Int) : Option Cmp :=
  match checkRefs a b refs with
  | some c => some c
  | none =>
    match compareElems f xs ys with
    | none => none
    | some .equal =>
      some (if xs.length < ys.length then .less else if xs.length > ys.length then .greater else .equal)
    | some c => some c

/-- core/kos_utils.c:1538-1605 `compare`.  `fuel` bounds the depth of recursion.  `none`: out of fuel, a failed assertion, or
undefined behaviour. -/
def compare (m : Mem) : Nat → List (Int × Int) → Int → Int → Option Cmp
  | fuel, refs, a, b =>
    let ta := objType m a
    let tb := objType m b
    if a = b then
      if ta = 4 then some (if m.fl.isNan (floatOf m a) then .indeterminate else .equal)
      else some .equal
    else if ta = tb ∨ (ta ≤ 4 ∧ tb ≤ 4) then
      if ta ≤ 4 then
        if ta = 4 ∨ tb = 4 then some (compareFloat m a b)
        else if ta = 0 ∧ tb = 0 then some (compareInt a b)
        else some (compareInt (intOf m a) (intOf m b))
      else
        match m.heap a, m.heap b with
        | .bool x, .bool y => some (compareInt x.toInt y.toInt)
        | .str s, .str t =>
          (Str.compare m.coll s t).map fun cmp => if cmp < 0 then .less else if cmp ≠ 0 then .greater else .equal
        | .arr xs, .arr ys =>
          match fuel with
          | 0 => none
          | fuel + 1 => compareArray (compare m fuel ((a, b) :: refs)) refs a b xs ys
        | .buf xs, .buf ys => some (compareBuf xs ys)
        | .other _, .other _ => some (compareInt a b)
        | _, _ => none
    else some (if ta < tb then .less else .greater)

/-- core/kos_utils.c:1607-1611 `KOS_compare`. -/
def kosCompare (m : Mem) (fuel : Nat) (a b : Int) : Option Cmp := compare m fuel [] a b

/-! The instructions, core/kos_vm.c:2748-2842.  The compiler swaps the operands for `>` and `>=` (core/kos_compiler.c:4763-4766). -/

def vmEq (m : Mem) (fuel : Nat) (a b : Int) : Option Bool := (kosCompare m fuel a b).map (· == .equal)
def vmNe (m : Mem) (fuel : Nat) (a b : Int) : Option Bool := (kosCompare m fuel a b).map (· != .equal)
def vmLe (m : Mem) (fuel : Nat) (a b : Int) : Option Bool := (kosCompare m fuel a b).map fun c => c == .equal || c == .less
def vmLt (m : Mem) (fuel : Nat) (a b : Int) : Option Bool := (kosCompare m fuel a b).map (· == .less)
def vmGe (m : Mem) (fuel : Nat) (a b : Int) : Option Bool := vmLe m fuel b a
def vmGt (m : Mem) (fuel : Nat) (a b : Int) : Option Bool := vmLt m fuel b a

end Verif.Utils
