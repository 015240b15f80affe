/-!
# Character classes of regular expressions: `add_class_range` and `match_class`

A class is an array of ranges of character codes, `RE_CLASS_RANGE`
(`modules/kos_mod_re.c:218-221`), a pair of the first and the last code.

Simplifications.  Codes are natural numbers, so `end_code + 1` does not wrap;
characters of strings are far below `0xFFFFFFFF`.  Running out of memory
(`kos_mod_re.c:573-576`) is not modelled.
-/

namespace Verif.Re

/-- `RE_CLASS_RANGE`, `modules/kos_mod_re.c:218-221`. -/
abbrev Range := Nat × Nat

/-- `range[i]`. -/
def rangeAt (rs : List Range) (i : Nat) : Range := rs.getD i (0, 0)

/-- The binary search of `add_class_range`, `modules/kos_mod_re.c:585-602`.
`fuel` bounds the number of turns; the length of the array is enough. -/
def search (rs : List Range) (b : Nat) : Nat → Nat → Nat → Nat × Nat
  | 0, lo, hi => (lo, hi)
  | fuel + 1, lo, hi =>
    if lo < hi then
      let mid := (lo + hi) / 2
      let code := (rangeAt rs mid).1
      if b = code then (mid, mid)
      else if b < code then search rs b fuel lo mid
      else search rs b fuel (mid + 1) hi
    else (lo, hi)

/-- The loop looking for ranges which touch the new one,
`modules/kos_mod_re.c:632-634`. -/
def scan (rs : List Range) (e : Nat) : Nat → Nat → Nat
  | 0, i => i
  | fuel + 1, i =>
    if i < rs.length then
      if e + 1 < (rangeAt rs i).1 then i else scan rs e fuel (i + 1)
    else i

/-- The end of `add_class_range` after ranges of the class have been found at or
after the new one, `modules/kos_mod_re.c:627-679`. -/
def place (rs : List Range) (b e begin «end» : Nat) : List Range :=
  -- lines 629-630
  let cut := decide (0 < begin) && decide (b ≤ (rangeAt rs (begin - 1)).2 + 1)
  let rs1 := if cut then rs.set (begin - 1) ((rangeAt rs (begin - 1)).1, e) else rs
  let begin1 := if cut then begin - 1 else begin
  let end1 := scan rs1 e rs1.length «end»
  if begin1 < end1 then
    -- lines 636-662
    let joined := rangeAt rs1 begin1
    let e1 := max e (rangeAt rs1 (end1 - 1)).2
    rs1.take begin1 ++ [(min b joined.1, max joined.2 e1)] ++ rs1.drop end1
  else
    -- lines 664-679
    rs1.take begin1 ++ [(b, e)] ++ rs1.drop begin1

/-- `add_class_range`, `modules/kos_mod_re.c:557-680`. -/
def addRange (rs : List Range) (b e : Nat) : List Range :=
  let (begin, «end») := search rs b (rs.length + 1) 0 rs.length
  if begin = rs.length then
    -- lines 604-625
    let last := rangeAt rs (rs.length - 1)
    if 0 < rs.length ∧ b ≤ last.2 + 1 then
      if last.2 < e then rs.set (rs.length - 1) (last.1, e) else rs
    else rs ++ [(b, e)]
  else place rs b e begin «end»

/-- The loop of `match_class`, `modules/kos_mod_re.c:1519-1530`. -/
def within (rs : List Range) (c : Nat) : Nat → Nat → Nat → Bool
  | 0, _, _ => false
  | fuel + 1, lo, hi =>
    let mid := (lo + hi) / 2
    let r := rangeAt rs mid
    if c < r.1 then if lo < mid then within rs c fuel lo mid else false
    else if r.2 < c then if mid + 1 < hi then within rs c fuel (mid + 1) hi else false
    else true

/-- `match_class`, `modules/kos_mod_re.c:1501-1533`; nothing when the assertion
that the class has ranges (line 1517) fails. -/
def matchClass (rs : List Range) (c : Nat) : Option Bool :=
  if rs = [] then none else some (within rs c rs.length 0 rs.length)

end Verif.Re
