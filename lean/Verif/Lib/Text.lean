/-
String functions of module base which are written in Kos: modules/base.kos:631-958 and 2100-2127.

A string is the list of its characters, and the bytes per character if it is given as a set of characters.  `find`, `scan`, `rscan` and `slice`
are those of the string model: see `Props/C44.lean`, where they are compared with it.
-/
namespace Verif.Text

/-- The first position from `i` on where `p` holds for the rest of the list, or -1. -/
def first (p : List Nat → Bool) : List Nat → Nat → Int
  | [], _ => -1
  | c :: cs, i => if p (c :: cs) then i else first p cs (i + 1)

/-- `s.find(sep, pos)` for `sep` which is not empty. -/
def find (s sep : List Nat) (pos : Nat) : Int := first (fun l => sep.isPrefixOf l) (s.drop pos) pos

/-- A set of characters: a string with its bytes per character. -/
structure Chars where
  codes : List Nat
  bytes : Nat
  deriving Repr, DecidableEq

/-- Where `scan` stops: a character which is wider than those of the set never counts (core/kos_string.c:1433). -/
def stops (set : Chars) (incl : Bool) : List Nat → Bool
  | [] => false
  | c :: _ => decide (c < 256 ^ set.bytes) && (set.codes.contains c == incl)

/-- `s.scan(set, pos, incl)` -/
def scan (s : List Nat) (set : Chars) (pos : Nat) (incl : Bool) : Int :=
  if set.codes = [] then (if pos ≤ s.length then pos else s.length) else first (stops set incl) (s.drop pos) pos

/-- `s.rscan(set, void, incl)` -/
def rscan (s : List Nat) (set : Chars) (incl : Bool) : Int :=
  if set.codes = [] then (s.length : Int) - 1
  else
    let r := first (stops set incl) s.reverse 0
    if r = -1 then -1 else (s.length : Int) - 1 - r

/-- `s[b:e]` for `b` and `e` which are not negative; `s[b:]` if `e` is the length. -/
def slice (s : List Nat) (b e : Int) : List Nat := (s.take e.toNat).drop b.toNat

/-- modules/base.kos:739 `whitespace`; the widest character needs two bytes. -/
def whitespace : Chars := ⟨[0x20, 0x0D, 0x0A, 0x09, 0x0C, 0x0B, 0xA0, 0x2028, 0x2029, 0xFEFF], 2⟩

/-- modules/base.kos:748 `eol` -/
def eol : Chars := ⟨[0x0A, 0x0D, 0x0B, 0x0C, 0x1C, 0x1D, 0x1E, 0x85, 0x2028, 0x2029], 2⟩

/-- modules/base.kos:765-772 -/
def lstrip (s : List Nat) (chars : Chars := whitespace) : List Nat :=
  let pos := scan s chars 0 false
  if pos ≠ -1 then slice s pos s.length else []

/-- modules/base.kos:791-795 -/
def rstrip (s : List Nat) (chars : Chars := whitespace) : List Nat :=
  let pos := rscan s chars false
  slice s 0 (pos + 1)

/-- modules/base.kos:814-822 -/
def strip (s : List Nat) (chars : Chars := whitespace) : List Nat :=
  let lpos := scan s chars 0 false
  if lpos ≠ -1 then
    let rpos := rscan s chars false
    slice s lpos (rpos + 1)
  else []

/-- modules/base.kos:873-887: the loop with `n` passes left, and what follows. -/
def wordLoop (s : List Nat) : Nat → Nat → List (List Nat)
  | 0, pos => [slice s pos s.length]
  | n + 1, pos =>
    let e := scan s whitespace pos true
    if e = -1 then [slice s pos s.length]
    else
      let next := scan s whitespace e.toNat false
      if next = -1 then [slice s pos e] else slice s pos e :: wordLoop s n next.toNat

/-- modules/base.kos:893-903: the loop with `n` passes left, and what follows. -/
def sepLoop (s sep : List Nat) : Nat → Nat → List (List Nat)
  | 0, pos => [slice s pos s.length]
  | n + 1, pos =>
    let e := find s sep pos
    if e = -1 then [slice s pos s.length] else slice s pos e :: sepLoop s sep n (e.toNat + sep.length)

/-- modules/base.kos:858-863: the number of parts. -/
def parts (maxSplit : Int) : Nat := if maxSplit < 0 then 0x10000 else maxSplit.toNat

/-- modules/base.kos:854-905; `none` is a failed assertion. -/
def split (s : List Nat) (sep : Option (List Nat)) (maxSplit : Int := -1) : Option (List (List Nat)) :=
  if sep = some [] then none
  else if maxSplit = 0 then some []
  else
    match sep with
    | none =>
      let pos := scan s whitespace 0 false
      if pos = -1 then some [] else some (wordLoop s (parts maxSplit - 1) pos.toNat)
    | some sep => some (sepLoop s sep (parts maxSplit - 1) 0)

/-- modules/base.kos:935-957; at most `n` passes. -/
def lineLoop (s : List Nat) (keep : Bool) : Nat → Nat → Option (List (List Nat))
  | 0, _ => none
  | n + 1, pos =>
    if pos = s.length then some []
    else
      let e := scan s eol pos true
      if e = -1 then some [slice s pos s.length]
      else if s[e.toNat]? = some 0x0D ∧ e.toNat + 1 < s.length ∧ s[e.toNat + 1]? = some 0x0A then
        (lineLoop s keep n (e.toNat + 2)).map (slice s pos (if keep then e + 2 else e) :: ·)
      else (lineLoop s keep n (e.toNat + 1)).map (slice s pos (if keep then e + 1 else e) :: ·)

/-- modules/base.kos:929-958; the position increases in every pass. -/
def splitLines (s : List Nat) (keep : Bool := false) : Option (List (List Nat)) := lineLoop s keep (s.length + 1) 0

/-- modules/base.kos:2111-2115: `pieces` after the loop; `i` is `dest_i`. -/
def place (pieces : List (List Nat)) : List (List Nat) → Nat → List (List Nat)
  | [], _ => pieces
  | x :: xs, i => place (pieces.set i x) xs (i + 2)

/-- Strings put together (`string.apply`, modules/kos_mod_base.c:643-): an exception if the result has more than 65535 characters. -/
def concat (l : List (List Nat)) : Option (List Nat) := if l.flatten.length ≤ 0xFFFF then some l.flatten else none

/-- modules/base.kos:2100-2127, for an array of strings. -/
def join (sep : List Nat) (toJoin : List (List Nat)) : Option (List Nat) :=
  let numPieces : Int := toJoin.length * 2 - 1
  concat (place (List.replicate (if numPieces > 0 then numPieces.toNat else 0) sep) toJoin 0)


end Verif.Text
