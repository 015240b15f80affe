import Verif.Utf8.Str
/-
Joining of string literals by the optimizer: core/kos_compiler_optim.c:1492-1574, and the text of a literal:
core/kos_compiler.c:418-450.
-/
namespace Verif.Compiler

/-- The part of a string token used here: `TT_STRING` or `TT_STRING_OPEN`, and the text of the token with its quotes. -/
structure StrTok where
  isOpen : Bool
  text : List Nat
  deriving DecidableEq, Repr

/-- core/kos_compiler_optim.c:1492-1505 `is_raw_str`. -/
def isRaw (t : StrTok) : Bool := !t.isOpen && (t.text.head? == some 114 || t.text.head? == some 82)

/-- core/kos_compiler.c:418-450 `get_token_str` for string tokens: the text between the quotes, and whether escapes
are processed. -/
def tokenStr (t : StrTok) : List Nat × Bool :=
  let raw := t.text.head? == some 114 || t.text.head? == some 82
  let begin := if raw then t.text.drop 1 else t.text
  let length := if raw then t.text.length - 1 else t.text.length
  let length := length - 2 - (if t.isOpen then 1 else 0)
  ((begin.drop 1).take length, !raw)

/-- core/kos_compiler_optim.c:1507-1574 `add_strings`; `none` is the compilation error.  Running out of memory is not
modelled. -/
def addStrings (a b : StrTok) : Option StrTok :=
  let raw := isRaw a
  let aLen := a.text.length - (if a.isOpen then 3 else 2)
  let bLen := b.text.length - (if b.isOpen then 3 else 2)
  let aBegin := if raw then a.text.drop 2 else a.text.drop 1
  let bBegin := if raw then b.text.drop 2 else b.text.drop 1
  let aLen := if raw then aLen - 1 else aLen
  let bLen := if raw then bLen - 1 else bLen
  let newLen := aLen + bLen + (if raw then 3 else 2)
  if newLen ≥ 0xFFFF then none
  else some ⟨false, (if raw then [114] else []) ++ 34 :: (aBegin.take aLen ++ (bBegin.take bLen ++ [34]))⟩

end Verif.Compiler
