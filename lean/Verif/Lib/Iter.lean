/-
Module iter: modules/iter.kos:25-50 `generator`, 145-187 `iproduct` and 207-247 `product`.

Generators are modelled by the list of what they yield when they are run until the end.
-/
namespace Verif.Iter

variable {α : Type}

/-- What `iproduct` yields: a number if there is one argument, or else an array. -/
inductive Item
  | one (i : Int)
  | many (l : List Int)
  deriving Repr, DecidableEq

/-- modules/base.kos:61-66: `range(num)`. -/
def range (num : Int) : List Int := (List.range num.toNat).map Int.ofNat

/-- modules/iter.kos:173-185: the loop over dimensions; arguments and `step` from the current index on.  `none` is `return`, which is reached when
all dimensions were set to 0. -/
def advance : List Int → List Int → Option (List Int)
  | a :: as, s :: ss => if s + 1 ≥ a then (advance as ss).map (0 :: ·) else some ((s + 1) :: ss)
  | _, _ => none

/-- modules/iter.kos:169-186; `none` if there are more than `n` passes. -/
def run (args : List Int) : Nat → List Int → Option (List (List Int))
  | 0, _ => none
  | n + 1, step =>
    match advance args step with
    | none => some [step]
    | some step' => (run args n step').map (step :: ·)

/-- modules/iter.kos:145-187; `n` bounds the number of passes of the loop. -/
def iproduct (n : Nat) : List Int → Option (List Item)
  | [] => some []
  | [num] => some ((range num).map .one)
  | args => if args.any (· ≤ 0) then some [] else (run args n (args.map fun _ => 0)).map (·.map .many)

/-- An argument of `product` with `generator`, modules/iter.kos:25-50. -/
inductive Src (α : Type)
  /-- not a function: `iterator()` starts again every time -/
  | fixed (l : List α)
  /-- a function, which can be run once: what it has left, and the array `cache` with the flag `initialized` -/
  | once (left cache : List α) (initialized : Bool)
  deriving Repr, DecidableEq

/-- An argument which was not used yet. -/
def Src.Fresh : Src α → Prop
  | .fixed _ => True
  | .once _ cache i => cache = [] ∧ i = false

/-- modules/iter.kos:30-48: the generator is made and run until the end. -/
def pass : Src α → List α × Src α
  | .fixed l => (l, .fixed l)
  | .once left cache i => if i then (cache, .once left cache i) else (left, .once [] (cache ++ left) true)

/-- modules/iter.kos:238-243: for every element of the outer generator, the inner product is made again. -/
def each (offs : Nat) (inner : List (Src α) → List (List (Option α)) × List (Src α)) : List α → List (Src α) → List (List (Option α)) × List (Src α)
  | [], gs => ([], gs)
  | e :: es, gs =>
    let r := inner gs
    let rest := each offs inner es r.2
    (r.1.map (fun other => other.set offs (some e)) ++ rest.1, rest.2)

/-- modules/iter.kos:224-244; `n` is the number of generators, of which the last comes first.  An element which is not set is `none`. -/
def productFrom (dim : Nat) : Nat → List (Src α) → List (List (Option α)) × List (Src α)
  | 1, [g] =>
    let p := pass g
    (p.1.map fun e => (List.replicate dim none).set 0 (some e), [p.2])
  | n + 1, g :: gs =>
    let p := pass g
    let r := each n (productFrom dim n) p.1 gs
    (r.1, p.2 :: r.2)
  | _, gs => ([], gs)

/-- modules/iter.kos:207-247, for two arguments or more, no two of which are the same generator. -/
def product (args : List (Src α)) : List (List (Option α)) := (productFrom args.length args.length args.reverse).1

end Verif.Iter
