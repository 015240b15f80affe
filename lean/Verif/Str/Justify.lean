import Verif.Str.Model

/-!
`ljust`, `rjust` and `zfill` of modules/base.kos, over the strings of `Str/Model.lean`.  `fill` is a string (the first assertion of each function) and `size` an integer.
Each allocation has its own oracle.  `none` is the exception of a failed assertion.
-/
namespace Verif.Str

/-- modules/base.kos:633-643 -/
def ljust (e1 e2 : Env) (this : S) (size : Int) (fill : S) : Option (Out S) :=
  if fill.len = 1 then
    some (if (this.len : Int) ≥ size then .ok this
    else
      match repeats e1 fill (size - this.len) with
      | .ok f => addN e2 [this, f]
      | .raise e => .raise e
      | .bad => .bad)
  else none

/-- modules/base.kos:671-681 -/
def rjust (e1 e2 : Env) (this : S) (size : Int) (fill : S) : Option (Out S) :=
  if fill.len = 1 then
    some (if (this.len : Int) ≥ size then .ok this
    else
      match repeats e1 fill (size - this.len) with
      | .ok f => addN e2 [f, this]
      | .raise e => .raise e
      | .bad => .bad)
  else none

/-- A string of one character is `+` or `-`. -/
def isSign (s : S) : Bool :=
  match getCharCode s 0 with
  | .ok c => s.len = 1 && (c = 43 || c = 45)
  | _ => false

/-- modules/base.kos:711-731; `this[1:]` is a slice up to `MAX_INT64` (core/kos_vm.c:1971-1974) -/
def zfill (e1 e2 e3 e4 : Env) (this : S) (size : Int) (fill : S) : Option (Out S) :=
  if fill.len = 1 then
    some (if (this.len : Int) ≥ size then .ok this
    else
      match repeats e1 fill (size - this.len) with
      | .raise e => .raise e
      | .bad => .bad
      | .ok f =>
        match (if this.len ≠ 0 then getChar e2 this 0 else .ok empty) with
        | .raise e => .raise e
        | .bad => .bad
        | .ok sign =>
          if isSign sign then
            match slice e3 this 1 9223372036854775807 with
            | .raise e => .raise e
            | .bad => .bad
            | .ok t => addN e4 [sign, f, t]
          else addN e4 [f, this])
  else none

end Verif.Str
