import Verif.Misc.Double
/-
Double to text: `kos_print_float`, core/kos_misc.c:535-574.

`snprintf` with "%.15f" is taken to be exact: the number is rounded to 15 decimals, ties to even (glibc in the default rounding mode).
Characters are bytes; a double is its 64-bit pattern.
-/
namespace Verif.Misc

/-- Decimal digits of a number, without leading zeroes; `fuel` is more than the number of digits. -/
def dec : Nat → Nat → List Nat
  | 0, _ => []
  | fuel + 1, n => if n < 10 then [48 + n] else dec fuel (n / 10) ++ [48 + n % 10]

/-- The last `k` decimal digits of a number. -/
def lastDigits : Nat → Nat → List Nat
  | 0, _ => []
  | k + 1, n => lastDigits k (n / 10) ++ [48 + n % 10]

/-- A finite double times 10^15, rounded: `mantissa * 2^(e - 1075)`. -/
def tenTo15 (bits : Nat) : Nat :=
  let e := bits / 2 ^ 52 % 2 ^ 11
  let m := if e = 0 then bits % 2 ^ 52 else 2 ^ 52 + bits % 2 ^ 52
  let u : Int := (max e 1 : Nat) - 1075
  if u ≥ 0 then m * 2 ^ u.toNat * 10 ^ 15 else Dbl.halfEven (m * 10 ^ 15) (2 ^ (-u).toNat)

/-- The text which "%.15f" stands for. -/
def fixed15 (bits : Nat) : List Nat :=
  let n := tenTo15 bits
  (if bits / 2 ^ 63 % 2 = 1 then [45] else []) ++ (dec (n / 10 ^ 15 + 1) (n / 10 ^ 15) ++ 46 :: lastDigits 15 (n % 10 ^ 15))

/-- core/kos_misc.c:567: `end` moves to the left over zeroes. -/
def trimEnd (buf : List Nat) : Nat → Nat
  | 0 => 0
  | i + 1 => if buf[i + 1]? = some 48 then trimEnd buf i else i + 1

/-- core/kos_misc.c:535-574 `kos_print_float`; `size` is at least 10. -/
def printFloat (size bits : Nat) : List Nat :=
  if bits / 2 ^ 52 % 2 ^ 11 = 0x7FF then
    if bits % 2 ^ 52 ≠ 0 then [110, 97, 110]
    else (if bits / 2 ^ 63 % 2 = 1 then [45] else []) ++ [105, 110, 102, 105, 110, 105, 116, 121]
  else
    let buf := (fixed15 bits).take (size - 1)
    let i := trimEnd buf (min (fixed15 bits).length (size - 1) - 1)
    let i := if buf[i]? = some 46 then i + 1 else i
    let i := if i < buf.length then i + 1 else i
    buf.take i

end Verif.Misc
