import Verif.Base.PackFormat
import Verif.Buf.Ops
import Verif.Props.C05

/-
What `pack` writes and what `unpack` gives back.
-/
set_option linter.constructorNameAsVariable false

namespace Verif.Base.Pack

open Verif.Utf8 (Kind utf8)
open Verif.Props (Encodable)

/-- The `n` least significant bytes of a number, two's complement, least significant first. -/
def leBytes (n : Nat) (v : Int) : List Nat := (List.range n).map fun k => (v / 256 ^ k % 256).toNat

def ordered (big : Bool) (l : List Nat) : List Nat := if big then l.reverse else l

def zeros (n : Nat) : List Nat := List.replicate n 0

/-- The integer of a numeric value. -/
def IntArg (fl : Floats) (v : Val) (k : Int) : Prop :=
  (v = .int k ∨ ∃ x, v = .float x ∧ fl.toInt x = some k) ∧ -9223372036854775808 ≤ k ∧ k < 9223372036854775808

/-- The bits of the floating-point number of a numeric value. -/
def FloatArg (fl : Floats) (v : Val) (x : Nat) : Prop := (v = .float x ∨ ∃ k, v = .int k ∧ fl.ofInt k = x) ∧ x < 18446744073709551616

/-- One value: format character, size, the value, what the buffer holds before, the bytes added, the value given back. -/
inductive One (fl : Floats) (big : Bool) : Fmt → Option Nat → Val → List Nat → List Nat → Val → Prop
  | unsigned (v : Val) (k : Int) (n : Nat) (cur : List Nat) : IntArg fl v k → n = 1 ∨ n = 2 ∨ n = 4 →
      One fl big .u (some n) v cur (ordered big (leBytes n k)) (.int (k % 256 ^ n))
  | unsigned8 (v : Val) (k : Int) (cur : List Nat) : IntArg fl v k → One fl big .u (some 8) v cur (ordered big (leBytes 8 k)) (.int k)
  | signed (v : Val) (k : Int) (n : Nat) (cur : List Nat) : IntArg fl v k → n = 1 ∨ n = 2 ∨ n = 4 ∨ n = 8 →
      One fl big .i (some n) v cur (ordered big (leBytes n k)) (.int ((k + 128 * 256 ^ (n - 1)) % 256 ^ n - 128 * 256 ^ (n - 1)))
  | single (v : Val) (x : Nat) (cur : List Nat) : FloatArg fl v x → fl.to32 x < 4294967296 →
      One fl big .f (some 4) v cur (ordered big (leBytes 4 (fl.to32 x))) (.float (fl.of32 (fl.to32 x)))
  | double (v : Val) (x : Nat) (cur : List Nat) : FloatArg fl v x → One fl big .f (some 8) v cur (ordered big (leBytes 8 x)) (.float x)
  | bytes (src : List Nat) (n : Nat) (cur : List Nat) :
      One fl big .b (some n) (.buf src) cur ((src ++ zeros n).take n) (.buf ((src ++ zeros n).take n))
  | self (n : Nat) (cur : List Nat) : cur ≠ [] ∨ n = 0 →
      One fl big .b (some n) .self cur ((cur ++ zeros n).take n) (.buf ((cur ++ zeros n).take n))
  | text (k : Kind) (codes : List Nat) (n m : Nat) (cur : List Nat) : Encodable k codes → (codes.flatMap utf8).length + m = n →
      codes.length + m ≤ 65535 → One fl big .s (some n) (.str k codes) cur (codes.flatMap utf8 ++ zeros m) (.str .ascii (codes ++ zeros m))
  | textAll (k : Kind) (codes : List Nat) (cur : List Nat) : Encodable k codes → codes ≠ [] ∨ cur ≠ [] → codes.length ≤ 65535 →
      One fl big .s none (.str k codes) cur (codes.flatMap utf8) (.str .ascii codes)

/-- The first values, as many as an item takes: count, values, what the buffer holds before, the bytes added, the values given back and
the values which are left. -/
inductive Many (fl : Floats) (big : Bool) (f : Fmt) (size : Option Nat) : Nat → List Val → List Nat → List Nat → List Val → List Val → Prop
  | zero (vs : List Val) (cur : List Nat) : Many fl big f size 0 vs cur [] [] vs
  | succ (n : Nat) (v : Val) (vs : List Val) (cur bytes : List Nat) (back : Val) (bytes' : List Nat) (backs rest : List Val) :
      One fl big f size v cur bytes back → Many fl big f size n vs (cur ++ bytes) bytes' backs rest →
      Many fl big f size (n + 1) (v :: vs) cur (bytes ++ bytes') (back :: backs) rest

/-- A format: byte order, elements, values, what the buffer holds before, the bytes added and the values given back. -/
inductive Run (fl : Floats) : Bool → List Tok → List Val → List Nat → List Nat → List Val → Prop
  | nil (big : Bool) (vs : List Val) (cur : List Nat) : Run fl big [] vs cur [] []
  | order (big big' : Bool) (toks : List Tok) (vs : List Val) (cur bytes : List Nat) (backs : List Val) :
      Run fl big' toks vs cur bytes backs → Run fl big (.order big' :: toks) vs cur bytes backs
  | pad (big : Bool) (n : Nat) (toks : List Tok) (vs : List Val) (cur bytes : List Nat) (backs : List Val) :
      Run fl big toks vs (cur ++ zeros n) bytes backs → Run fl big (.item .x (some 1) n :: toks) vs cur (zeros n ++ bytes) backs
  | item (big : Bool) (f : Fmt) (size : Option Nat) (n : Nat) (toks : List Tok) (vs : List Val) (cur bytes : List Nat) (backs rest : List Val)
      (bytes' : List Nat) (backs' : List Val) : f ≠ .x →
      (f = .u ∨ f = .i → size = some 1 ∨ size = some 2 ∨ size = some 4 ∨ size = some 8) → (f = .f → size = some 4 ∨ size = some 8) →
      (f = .b → size ≠ none) →
      Many fl big f size n vs cur bytes backs rest → Run fl big toks rest (cur ++ bytes) bytes' backs' →
      Run fl big (.item f size n :: toks) vs cur (bytes ++ bytes') (backs ++ backs')

/-- Values up to the internal representation of strings. -/
def erase : Val → Val
  | .str _ codes => .str .ascii codes
  | v => v

/-! ### Numbers -/

theorem leBytes_succ (n : Nat) (v : Int) : leBytes (n + 1) v = (v % 256).toNat :: leBytes n (v / 256) := by
  unfold leBytes
  rw [List.range_succ_eq_map, List.map_cons, List.map_map]
  congr 1
  · simp
  · apply List.map_congr_left
    intro k _
    simp only [Function.comp]
    rw [Nat.succ_eq_add_one, Int.pow_succ', Int.ediv_ediv_of_nonneg (by decide)]

theorem leBytes_length (n : Nat) (v : Int) : (leBytes n v).length = n := by simp [leBytes]

theorem ordered_length (big : Bool) (l : List Nat) : (ordered big l).length = l.length := by cases big <;> simp [ordered]

/-- Big endian value. -/
def be (a : Nat) (l : List Nat) : Nat := l.foldl (fun a x => a * 256 + x) a

theorem be_le (n : Nat) : ∀ v : Int, be 0 (leBytes n v).reverse = (v % 256 ^ n).toNat := by
  induction n with
  | zero => intro v; simp [leBytes, be, Int.emod_one]
  | succ n ih =>
    intro v
    rw [leBytes_succ, List.reverse_cons, be, List.foldl_append]
    have := ih (v / 256)
    rw [be] at this
    rw [this]
    simp only [List.foldl_cons, List.foldl_nil]
    have hp : (0 : Int) < 256 ^ n := Int.pow_pos (by decide)
    have e : v % 256 ^ (n + 1) = v / 256 % 256 ^ n * 256 + v % 256 := by
      rw [Int.pow_succ', Int.emod_def v, Int.emod_def (v / 256), ← Int.ediv_ediv_of_nonneg (by decide), Int.mul_assoc, Int.sub_mul,
        Int.mul_comm _ 256]
      omega
    have h1 := Int.emod_nonneg (v / 256) (show (256 : Int) ^ n ≠ 0 by omega)
    have h2 := Int.emod_nonneg v (show (256 : Int) ≠ 0 by decide)
    rw [e]
    omega

end Verif.Base.Pack
