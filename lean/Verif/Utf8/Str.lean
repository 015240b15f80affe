import Verif.Utf8.Model
/-
Conversion between strings and UTF-8 buffers: core/kos_string.c.
-/
namespace Verif.Utf8

/-- Element kinds of a string (`KOS_STRING_ASCII`, `KOS_STRING_ELEM_8/16/32`). -/
inductive Kind | ascii | e8 | e16 | e32
  deriving DecidableEq, Repr

def Kind.width : Kind → Nat | .ascii => 8 | .e8 => 8 | .e16 => 16 | .e32 => 32
/-- Exclusive bound of the elements stored in a string of the kind. -/
def Kind.bound : Kind → Nat | .ascii => 128 | .e8 => 256 | .e16 => 65536 | .e32 => 4294967296

/-- core/kos_string.c:44-62 `string_size_from_max_code` (default configuration). -/
def kindFromMax (m : Nat) : Kind :=
  if m < 0x80 then .ascii else if m < 0x100 then .e8 else if m < 0x10000 then .e16 else .e32

/-- Value of the `KOS_STRING_FLAGS` enum (inc/kos_entity.h:202-208), used as a shift count when allocating. -/
def Kind.flag : Kind → Nat | .ascii => 4 | .e8 => 0 | .e16 => 1 | .e32 => 2
/-- Size of one element in bytes. -/
def Kind.elemBytes : Kind → Nat | .ascii => 1 | .e8 => 1 | .e16 => 2 | .e32 => 4

/-- Bytes allocated for characters by `new_empty_string` (core/kos_string.c:64-85): `length << elem_size`. -/
def allocBytes (k : Kind) (n : Nat) : Nat := n <<< k.flag

/-- core/kos_string.c:313-389 `KOS_new_string_from_buffer` on the selected bytes (`begin <= end <= size` holds).
The string has `length` elements.  For the ASCII kind, all source bytes are copied into the string and the first
`length` of them become its elements.  Writing outside of the allocation is `ub`, and so is the failed
assertion `length > 0` in `new_empty_string`.  Allocation failure is not modelled. -/
def stringFromBuffer (w : Nat) (aligned : Nat → Bool) (bytes : List Nat) : Out (Kind × List Nat) :=
  match getLen false w aligned bytes with
  | .ub => .ub
  | .err => .err
  | .ok (length, maxCode) =>
    if length > 0xFFFF then .err
    else if length = 0 then .ub
    else
      match kindFromMax maxCode with
      | .ascii => -- memcpy(ptr, buf, size)
        if bytes.length ≤ allocBytes .ascii length then .ok (.ascii, bytes.take length) else .ub
      | k =>
        match decode false k.width bytes with
        | .ok out => if out.length * k.elemBytes ≤ allocBytes k length then .ok (k, out.take length) else .ub
        | .err => .err
        | .ub => .ub

/-- core/kos_string.c:87-143 `new_string` (string literals and C strings): here the allocation is by byte length. -/
def newString (esc : Bool) (w : Nat) (aligned : Nat → Bool) (bytes : List Nat) : Out (Kind × List Nat) :=
  if bytes.length > 4 * 0xFFFF then .err
  else if bytes = [] then .ok (.ascii, [])
  else
    match getLen esc w aligned bytes with
    | .ub => .ub
    | .err => .err
    | .ok (count, maxCode) =>
      if count < 0xFFFF then
        let k := kindFromMax maxCode
        match decode esc k.width bytes with
        | .ok out => if out.length * k.elemBytes ≤ allocBytes k bytes.length then .ok (k, out.take count) else .ub
        | .err => .err
        | .ub => .ub
      else .err

/-- core/kos_string.c:391-462 `KOS_string_to_utf8`: the bytes written, and `num_out`; `none` is `~0U`. -/
def stringToUtf8 (k : Kind) (codes : List Nat) : Option (List Nat × Nat) :=
  match k with
  | .ascii => some (codes, codes.length)
  | .e8 => if calcSize8 codes = codes.length then some (codes, calcSize8 codes) else some (encode8 codes, calcSize8 codes)
  | .e16 => some (encode16 codes, calcSize16 codes)
  | .e32 => match calcSize32 0 codes with
    | some n => some (encode32 codes, n)
    | none => none

end Verif.Utf8
