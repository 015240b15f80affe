import Verif.Arr.Model
import Verif.Utils.GetInt

/-!
`array.prototype.cas`, modules/kos_mod_base.c:3782-3814.  `none` is an exception for a position which is not a number or is out of range for integers.
-/
namespace Verif.Arr

/-- `(int)pos`, which drops the upper half. -/
def toCInt (pos : Int) : Int := (pos + 2147483648) % 4294967296 - 2147483648

def casMethod {V : Type} [DecidableEq V] (s : A V) (pos : GetInt.Obj) (old new : V) : Option (Out V V) :=
  match pos with
  | .other => none
  | pos =>
    match GetInt.getInteger pos with
    | .ok p => some (cas s (toCInt p) old new)
    | .exception => none
    | .ub => some .bad

end Verif.Arr
