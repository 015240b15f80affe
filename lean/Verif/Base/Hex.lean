/-
`hex` (modules/base.kos:1676-1707).  The result string is the list of its character codes.
`none` is an exception (failed assertion, or buffer index out of range).
-/
namespace Verif.Base

/-- modules/base.kos:1658-1659 `hex_digits`. -/
def hexDigits : List Nat :=
  [0x30, 0x31, 0x32, 0x33, 0x34, 0x35, 0x36, 0x37, 0x38, 0x39, 0x61, 0x62, 0x63, 0x64, 0x65, 0x66]

/-- Buffer element store `buf[i] = b`: negative indices count from the end, out of range raises
(core/kos_buffer.c `KOS_buffer_write` via the VM; index fix-up as in core/kos_utils.c `KOS_fix_index`). -/
def bufSet (buf : List Nat) (i : Int) (b : Nat) : Option (List Nat) :=
  let j := if i < 0 then i + buf.length else i
  if 0 ≤ j ∧ j < buf.length then some (buf.set j.toNat b) else none

/-- modules/base.kos:1689-1693: `repeat { codes[i] = digits[value & 15]; value >>>= 4; i -= 1 } while value`. -/
def hexLoop (codes : List Nat) (i : Int) (value : BitVec 64) : Option (List Nat × Int) :=
  match hexDigits[(value &&& 15#64).toNat]? with
  | none => none
  | some d =>
    match bufSet codes i d with
    | none => none
    | some codes' =>
      if value >>> 4 = 0 then some (codes', i - 1) else hexLoop codes' (i - 1) (value >>> 4)
termination_by value.toNat
decreasing_by
  rename_i h
  have h2 : (value >>> 4).toNat = value.toNat / 16 := by simp [Nat.shiftRight_eq_div_pow]
  have h3 : (value >>> 4).toNat ≠ 0 := by
    intro h0; apply h; apply BitVec.eq_of_toNat_eq; simpa using h0
  omega

/-- modules/base.kos:1697-1700: zero padding, `while i > target_i`. -/
def padLoop (codes : List Nat) (i target : Int) : Option (List Nat × Int) :=
  if i > target then
    match bufSet codes i 0x30 with
    | none => none
    | some c => padLoop c (i - 1) target
  else some (codes, i)
termination_by (i - target).toNat

/-- modules/base.kos:1676-1707 `hex`. -/
def hex (value : BitVec 64) (minDigits : Int) : Option (List Nat) :=
  if ¬ (minDigits ≥ 0 ∧ minDigits ≤ 16) then none
  else
    match hexLoop (List.replicate 18 0) 17 value with
    | none => none
    | some (codes, i) =>
      match padLoop codes i (17 - minDigits) with
      | none => none
      | some (codes, i) =>
        match bufSet codes i 0x78 with
        | none => none
        | some codes =>
          match bufSet codes (i - 1) 0x30 with
          | none => none
          | some codes => some (codes.drop (i - 1).toNat)   -- codes[i:], i is not negative here (proved)

end Verif.Base
