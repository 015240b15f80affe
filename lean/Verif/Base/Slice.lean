import Verif.Arr.Model
import Verif.Buf.Model
import Verif.Str.Model

/-!
The `slice` method shared by arrays, buffers and strings.

Arguments are void (`none`) or 64-bit integers; the conversion of floats is in `Verif.Misc`, and other arguments raise.
-/
namespace Verif.Base

/-- modules/kos_mod_base.c:2123-2130: the beginning of the range. -/
def sliceBegin : Option Int → Int
  | none => 0
  | some i => i

/-- modules/kos_mod_base.c:2132-2139: the end of the range; void is `MAX_INT64`. -/
def sliceEnd : Option Int → Int
  | none => 9223372036854775807
  | some i => i

/-- modules/kos_mod_base.c:2105-2151 `slice`, called on an array. -/
def sliceArray {V : Type} (mem : Nat → Bool) (s : Arr.A V) (b e : Option Int) : Arr.Out V (Arr.A V) := Arr.slice mem s (sliceBegin b) (sliceEnd e)

/-- The same, called on a buffer. -/
def sliceBuffer (env : Buf.Env) (s : Buf.B) (b e : Option Int) : Buf.Out Buf.B := Buf.slice env s (sliceBegin b) (sliceEnd e)

/-- The same, called on a string. -/
def sliceString (env : Str.Env) (s : Str.S) (b e : Option Int) : Str.Out Str.S := Str.slice env s (sliceBegin b) (sliceEnd e)

end Verif.Base
