/-
Keyword lookup (core/kos_lexer.c:275-323 `keywords`, 767-792 `find_keyword`).  Characters are bytes (`Nat`).
-/
namespace Verif.Lexer

def bytes (s : String) : List Nat := s.toList.map Char.toNat

/-- core/kos_lexer.c:275-323 `keywords`; entry 0 is a null pointer in the code and is never compared. -/
def keywords : List (List Nat) := [
  [], bytes "_", bytes "__line__", bytes "assert", bytes "async", bytes "break", bytes "case",
  bytes "catch", bytes "class", bytes "const", bytes "constructor", bytes "continue",
  bytes "default", bytes "defer", bytes "delete", bytes "do", bytes "else", bytes "extends",
  bytes "fallthrough", bytes "false", bytes "for", bytes "fun", bytes "get", bytes "if",
  bytes "import", bytes "in", bytes "instanceof", bytes "loop", bytes "match",
  bytes "propertyof", bytes "public", bytes "repeat", bytes "return", bytes "set",
  bytes "static", bytes "super", bytes "switch", bytes "this", bytes "throw", bytes "true",
  bytes "try", bytes "typeof", bytes "var", bytes "void", bytes "while", bytes "with", bytes "yield"]

/-- C library `strncmp(s, k, n)` with `n` the length of `s`, `k` NUL-terminated:
the order of the first difference, equal if none is found before both end or `n` bytes are compared. -/
def strncmp : List Nat → List Nat → Ordering
  | [], _ => .eq                                  -- n characters compared
  | c :: cs, [] => if c = 0 then .eq else .gt     -- k has its terminating NUL here
  | c :: cs, k :: ks =>
    if c < k then .lt else if c > k then .gt else if c = 0 then .eq else strncmp cs ks

/-- `keywords[mid][num]` is not the terminating NUL. -/
def hasMore (k : List Nat) (num : Nat) : Bool := (k[num]?).getD 0 != 0

/-- core/kos_lexer.c:774-789: the binary search; `low` and `high` are `unsigned char`. -/
def searchLoop (s : List Nat) : Nat → Nat → Nat → Nat
  | 0, _, _ => 0
  | fuel + 1, low, high =>
    if low ≤ high then
      let mid := (low + high) / 2
      let k := (keywords[mid]?).getD []
      match strncmp s k with
      | .eq => if hasMore k s.length then searchLoop s fuel low ((mid + 255) % 256) else mid
      | .lt => searchLoop s fuel low ((mid + 255) % 256)
      | .gt => searchLoop s fuel ((mid + 1) % 256) high
    else 0

/-- core/kos_lexer.c:767-792 `find_keyword`. The result is the index of the keyword (`KOS_KEYWORD_TYPE`), 0 for none.
The fuel exceeds the number of table entries, so it never runs out (each round shrinks the interval). -/
def findKeyword (s : List Nat) : Nat := searchLoop s 64 1 (keywords.length - 1)

end Verif.Lexer
