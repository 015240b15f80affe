import Verif.Re.Parse

/-!
# The matcher of regular expressions: `match_string` and `re.find`

`match_string` interprets the words made by `parse_re`.  Alternatives which are
not taken are pushed on a stack, with the place in the string, all counts and all
groups, and are taken when the current one fails.

Simplifications.  The string is the list of the codes of its characters and
places in it are counted in characters.  Reading words, counts, groups or classes
which do not exist, or jumping in front of the code, is `bad`, a result of its
own, as are the violated assertions.  The result has the numbers of the match
object (`begin`, `end` and the pairs in `groups`); the substrings made of them
are not modelled.  Running out of memory, when the stack grows too much, is not
modelled either.  The interpreter runs for a number of steps; it is proved that
some number is enough.
-/

namespace Verif.Re

/-- `RE_INSTR`, `modules/kos_mod_re.c:141-158`, with operands. -/
inductive Instr where
  | char (c : Nat)
  | char32 (hi lo : Nat)
  | any
  | cls (neg : Bool) (id : Nat)
  | lineBegin
  | lineEnd
  | boundary (kind : Nat)
  | beginGroup (id : Nat)
  | endGroup (id : Nat)
  | fork (d : Nat)
  | jump (d : Nat)
  | count (lazy : Bool) (d id min : Nat)
  | loop (lazy : Bool) (d id min max : Nat)

/-- The instruction at the beginning of words; nothing for words which do not
exist. -/
def decode : List Nat → Option Instr
  | 0 :: c :: _ => some (.char c)
  | 1 :: hi :: lo :: _ => some (.char32 hi lo)
  | 2 :: _ => some .any
  | 3 :: id :: _ => some (.cls false id)
  | 4 :: id :: _ => some (.cls true id)
  | 5 :: _ => some .lineBegin
  | 6 :: _ => some .lineEnd
  | 7 :: k :: _ => some (.boundary k)
  | 8 :: id :: _ => some (.beginGroup id)
  | 9 :: id :: _ => some (.endGroup id)
  | 10 :: d :: _ => some (.fork d)
  | 11 :: d :: _ => some (.jump d)
  | 12 :: d :: id :: min :: _ => some (.count false d id min)
  | 13 :: d :: id :: min :: _ => some (.count true d id min)
  | 14 :: d :: id :: min :: max :: _ => some (.loop false d id min max)
  | 15 :: d :: id :: min :: max :: _ => some (.loop true d id min max)
  | _ => none

/-- `RE_POSS_STACK_ITEM`, `modules/kos_mod_re.c:1378-1382`. -/
structure Item where
  instr : Nat
  offs : Nat
  slots : List Nat

/-- The state of `match_string`: `bytecode`, `iter` and the stack, of which the
first item is `slots`. -/
structure Cfg where
  ip : Nat
  pos : Nat
  slots : List Nat
  stack : List Item

/-- What the interpreter is applied to: the compiled expression, the string,
`begin_pos` and `end_pos`. -/
structure Env where
  prog : Prog
  str : List Nat
  lo : Nat
  hi : Nat

/-- One step. -/
inductive Res where
  | next (c : Cfg)
  | found (c : Cfg)
  | fail
  | bad

/-- `peek_next_char` on the string, which ends at `end_pos`,
`modules/kos_mod_re.c:241-247`, `1641`. -/
def Env.peek (E : Env) (pos : Nat) : Option Nat := if pos < E.hi then E.str[pos]? else none

/-- `bytecode + delta` with `delta` an `int16_t`; nothing in front of the code. -/
def target (ip d : Nat) : Option Nat :=
  let t : Int := if d < 32768 then (ip : Int) + d else (ip : Int) + d - 65536
  if t < 0 then none else some t.toNat

/-- `try_other_possibility` with `pop_possibility`, `modules/kos_mod_re.c:1479-1499`,
`1903-1913`. -/
def Env.back (E : Env) : List Item → Res
  | [] => .fail
  | it :: st => .next ⟨it.instr, E.hi - it.offs, it.slots, st⟩

/-- `push_possibility`, `modules/kos_mod_re.c:1455-1477`. -/
def Env.save (E : Env) (c : Cfg) (ip : Nat) : Item := ⟨ip % 65536, (E.hi - c.pos) % 65536, c.slots⟩

/-- The ranges of a class, `modules/kos_mod_re.c:1511-1515`. -/
def Prog.cls (p : Prog) (id : Nat) : Option (List Range) :=
  p.descs[id]?.map fun d => (p.data.drop d.1).take d.2

/-- `is_word_char`, `modules/kos_mod_re.c:1608-1614`. -/
def isWordChar (c : Nat) : Bool :=
  (decide (65 ≤ c) && decide (c ≤ 90)) || (decide (97 ≤ c) && decide (c ≤ 122)) ||
    (decide (48 ≤ c) && decide (c ≤ 57)) || decide (c = 95)

/-- `is_word_char` of a character which may be `END_OF_STR`. -/
def isWordOpt : Option Nat → Bool
  | some c => isWordChar c
  | none => false

/-- `cur_state`, `modules/kos_mod_re.c:1753-1761`. -/
def boundaryState (prev cur : Bool) : Nat :=
  if prev then (if cur then 1 else 4) else (if cur then 2 else 1)

/-- Going on behind an instruction, with a character consumed or not, if `ok`. -/
def Env.test (E : Env) (c : Cfg) (ok : Bool) (size chars : Nat) : Res :=
  if ok then .next { c with ip := c.ip + size, pos := c.pos + chars } else E.back c.stack

/-- Writing a slot; nothing when it does not exist. -/
def setSlot (slots : List Nat) (i v : Nat) : Option (List Nat) :=
  if i < slots.length then some (slots.set i v) else none

/-- `BEGIN.GROUP` and `END.GROUP`, `modules/kos_mod_re.c:1770-1788`, with
`is_capturing_group`, lines 894-897, and `get_group`, lines 1603-1606.  `which` is 0
or 1. -/
def Env.mark (E : Env) (c : Cfg) (id which : Nat) : Res :=
  if id < 0x7FFF then
    match setSlot c.slots (E.prog.counts + id * 2 + which) (c.pos % 65536) with
    | some s => .next { c with ip := c.ip + 2, slots := s }
    | none => .bad
  else .next { c with ip := c.ip + 2 }

/-- `GREEDY.COUNT` and `LAZY.COUNT`, `modules/kos_mod_re.c:1811-1844`. -/
def Env.startCount (E : Env) (c : Cfg) (lazy : Bool) (d id min : Nat) : Res :=
  match setSlot c.slots id 0, target c.ip d with
  | some s, some t =>
    let c1 := { c with slots := s }
    if lazy then
      if min = 0 then .next { c1 with ip := t, stack := E.save c1 (c.ip + 4) :: c.stack }
      else .next { c1 with ip := c.ip + 4 }
    else
      if min = 0 then .next { c1 with ip := c.ip + 4, stack := E.save c1 t :: c.stack }
      else .next { c1 with ip := c.ip + 4 }
  | _, _ => .bad

/-- `GREEDY.JUMP` and `LAZY.JUMP`, `modules/kos_mod_re.c:1846-1897`. -/
def Env.endCount (E : Env) (c : Cfg) (lazy : Bool) (d id min max : Nat) : Res :=
  let count := (c.slots.getD id 0 + 1) % 65536
  match setSlot c.slots id count, target c.ip d with
  | some s, some t =>
    let c1 := { c with slots := s }
    if count < min then .next { c1 with ip := t }
    else if lazy then
      .next { c1 with ip := c.ip + 5, stack := if count < max then E.save c1 t :: c.stack else c.stack }
    else if count < max then .next { c1 with ip := t, stack := E.save c1 (c.ip + 5) :: c.stack }
    else .next { c1 with ip := c.ip + 5 }
  | _, _ => .bad

/-- The body of the loop of `match_string`, `modules/kos_mod_re.c:1646-1915`. -/
def Env.exec (E : Env) (c : Cfg) : Instr → Res
  | .char x => E.test c (decide (E.peek c.pos = some x)) 2 1
  | .char32 hi lo => E.test c (decide (E.peek c.pos = some (hi * 65536 + lo))) 3 1
  | .any => E.test c (E.peek c.pos).isSome 1 1
  | .cls neg id =>
    match E.peek c.pos with
    | none => E.back c.stack
    | some x => match (E.prog.cls id).bind (matchClass · x) with
      | none => .bad
      | some v => E.test c (v != neg) 2 1
  | .lineBegin =>
    E.test c (!decide (E.lo < c.pos) || decide (E.str[c.pos - 1]? = some 13) || decide (E.str[c.pos - 1]? = some 10)) 1 0
  | .lineEnd =>
    E.test c (decide (E.peek c.pos = none) || decide (E.peek c.pos = some 13) || decide (E.peek c.pos = some 10)) 1 0
  | .boundary k =>
    let prev := if 0 < c.pos then isWordOpt E.str[c.pos - 1]? else false
    let cur := isWordOpt (E.peek c.pos)
    E.test c (decide (k &&& boundaryState prev cur ≠ 0)) 2 0
  | .beginGroup id => E.mark c id 0
  | .endGroup id => E.mark c id 1
  | .fork d =>
    match target c.ip d with
    | some t => .next { c with ip := c.ip + 2, stack := E.save c t :: c.stack }
    | none => .bad
  | .jump d =>
    match target c.ip d with
    | some t => .next { c with ip := t }
    | none => .bad
  | .count lazy d id min => E.startCount c lazy d id min
  | .loop lazy d id min max => E.endCount c lazy d id min max

/-- One turn of the loop of `match_string`, `modules/kos_mod_re.c:1644-1916`. -/
def Env.step (E : Env) (c : Cfg) : Res :=
  if c.ip < E.prog.code.length then
    match decode (E.prog.code.drop c.ip) with
    | some i => E.exec c i
    | none => .bad
  else .found c

/-- The numbers of a match object. -/
structure Match where
  begin : Nat
  «end» : Nat
  groups : List (Option (Nat × Nat))
  deriving DecidableEq, Repr

/-- The result of `match_string` and of `re.find`. -/
inductive Out where
  | found (m : Match)
  | void
  | bad
  deriving DecidableEq, Repr

/-- `create_found_groups`, `modules/kos_mod_re.c:1535-1589`, for one group. -/
def foundGroup (p : Prog) (slots : List Nat) (i : Nat) : Option (Nat × Nat) :=
  let b := slots.getD (p.counts + i * 2) 0
  let e := slots.getD (p.counts + i * 2 + 1) 0
  if b ≠ 0xFFFF ∧ e ≠ 0xFFFF then some (b, e) else none

/-- The end of `match_string`, `modules/kos_mod_re.c:1918-1944`. -/
def Env.result (E : Env) (pos : Nat) (c : Cfg) : Match :=
  ⟨pos, c.pos, (List.range E.prog.groups).map (foundGroup E.prog c.slots)⟩

/-- The loop of `match_string` for `n` steps; nothing when it is not finished. -/
def Env.run (E : Env) (pos : Nat) : Nat → Cfg → Option Out
  | 0, _ => none
  | n + 1, c =>
    match E.step c with
    | .next c' => Env.run E pos n c'
    | .found c' => some (.found (E.result pos c'))
    | .fail => some .void
    | .bad => some .bad

/-- `match_string`, `modules/kos_mod_re.c:1619-1951`, with
`reset_possibility_stack`, lines 1421-1448. -/
def Env.matchAt (E : Env) (n pos : Nat) : Option Out :=
  E.run pos n ⟨0, pos, List.replicate E.prog.counts 0 ++ List.replicate (2 * E.prog.groups) 0xFFFF, []⟩

/-- The loop of `re_find`, `modules/kos_mod_re.c:2066-2071`; `k` turns are left. -/
def Env.findFrom (E : Env) (n : Nat) : Nat → Nat → Option Out
  | 0, _ => some .void
  | k + 1, pos =>
    match E.matchAt n pos with
    | some .void => Env.findFrom E n k (pos + 1)
    | r => r

/-- `re_find`, `modules/kos_mod_re.c:2032-2078`, after the arguments have been
checked: `lo` and `hi` are `begin_pos` and `end_pos`. -/
def find (n : Nat) (p : Prog) (str : List Nat) (lo hi : Nat) : Option Out :=
  Env.findFrom ⟨p, str, lo, hi⟩ n (hi + 1 - lo) lo

end Verif.Re
