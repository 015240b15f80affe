import Verif.Utf8.Str
/-
Quoting of strings when a container is printed: core/kos_utils.c:465-626 `vector_append_str` with
`KOS_QUOTE_STRINGS`.  The vector is empty before the call; out of memory is not modelled.
-/
namespace Verif.Quote
open Verif.Utf8

/-- core/kos_utils.c:60-84 `extra_len_map`. -/
def extraLen (c : Nat) : Int :=
  if c < 32 then 3
  else if c = 34 ∨ c = 92 then 1
  else if c < 127 then 0
  else if c = 127 then 3
  else if c < 192 then -1
  else if c < 196 then 3
  else if c < 224 then 6
  else if c < 240 then 7
  else if c < 248 then 8
  else 3

/-- core/kos_utils.c:511-516. -/
def extraSum (bytes : List Nat) : Int := bytes.foldl (fun s c => s + extraLen c) 0

/-- core/kos_utils.c:86 `hex_digits`. -/
def hexDigit (d : Nat) : Nat := if d < 10 then 48 + d else 87 + d

/-- Digits of the `\x{...}` form, written backwards (core/kos_utils.c:594-597). -/
def braceDigits : Nat → Nat → List Nat → List Nat
  | 0, _, out => out
  | n + 1, code, out => braceDigits n (code >>> 4) (hexDigit (code &&& 0xF) :: out)

/-- `KOS_utf8_decode_32(src, n, KOS_UTF8_NO_ESCAPE, &code[0])` into an array of one element. -/
def decodeOne (bytes : List Nat) : Option Nat :=
  match decode false 32 bytes with
  | .ok [code] => some code
  | _ => none

/-- core/kos_utils.c:530-613: the loop which expands characters in place, from the end.
`pre` are the unread bytes before `src`, backwards; `cont` the bytes skipped as UTF-8 continuation since the last
character written; `out` the bytes from `dst` on; `gap` is `dst - src`.  The outcome `ub` stands for a failed assertion, a
read of bytes already overwritten, a write over bytes not read yet, a read before the start of the text, or a bad index. -/
def quoteLoop : List Nat → List Nat → List Nat → Int → Out (List Nat)
  | pre, cont, out, gap =>
    if gap = 0 then .ok (pre.reverse ++ out)
    else if gap < 0 then .ub
    else
      match pre with
      | [] => .ub
      | c :: pre =>
        let len := extraLen c
        if len = -1 then quoteLoop pre (c :: cont) out (gap + 1)
        else if gap < len then .ub
        else if len = 0 then quoteLoop pre cont (c :: out) gap
        else if len = 1 then quoteLoop pre cont (92 :: c :: out) (gap - 1)
        else if len = 3 then
          match (if cont ≠ [] then
              if cont.length ≠ 1 ∨ gap < cont.length then none else decodeOne (c :: cont)
            else some c) with
          | none => .ub
          | some code =>
            if code >>> 4 > 15 then .ub
            else quoteLoop pre [] (92 :: 120 :: hexDigit (code >>> 4) :: hexDigit (code &&& 0xF) :: out) (gap - 3)
        else
          match (if cont.length ≥ 5 ∨ gap < cont.length then none else decodeOne (c :: cont)) with
          | none => .ub
          | some code =>
            quoteLoop pre [] (92 :: 120 :: 123 :: braceDigits (len - 3).toNat code (125 :: out)) (gap - len)
termination_by structural pre => pre

/-- core/kos_utils.c:465-626: text of the quoted string; `err` is an exception. -/
def quote (k : Kind) (codes : List Nat) : Out (List Nat) :=
  match stringToUtf8 k codes with
  | none => .err
  | some (bytes, _) =>
    match (if extraSum bytes ≠ 0 then quoteLoop bytes.reverse [] [] (extraSum bytes) else .ok bytes) with
    | .ok body => .ok (34 :: body ++ [34])
    | .err => .err
    | .ub => .ub

end Verif.Quote
