import Verif.Utf8.Model

/-!
Editing a line in the interactive interpreter: core/kos_getline.c, for systems other than Windows.

Bytes are `Nat`.  A buffer (`KOS_VECTOR`) is the list of its bytes; reads at its size or beyond are failures.  Memory is not refused and writes
to the terminal do not fail.  What is written is kept in `out`.
-/
namespace Verif.Line

open Verif.Utf8 (codeLen)

inductive Err where
  | ub
  | assert
  deriving DecidableEq, Repr

/-- arithmetic of `unsigned` -/
def add32 (a b : Nat) : Nat := (a + b) % 4294967296

def sub32 (a b : Nat) : Nat := (a + 4294967296 - b) % 4294967296

/-- core/kos_getline.c:380-385 `TERM_POS` -/
structure Pos where
  log : Nat
  phys : Nat
  deriving DecidableEq, Repr

/-- What is sent to the terminal. -/
inductive Term where
  | write (bs : List Nat)
  /-- `ESC [ 0 K` -/
  | erase
  | left (n : Nat)
  | right (n : Nat)
  | bell
  | clear
  deriving DecidableEq, Repr

/-- core/kos_getline.c:765-778 `KOS_GETLINE_HISTORY_NODE_S`; `room` is the size of the allocated buffer -/
structure Node where
  bytes : List Nat
  room : Nat
  capacity : Nat
  size : Nat
  lineSize : Nat
  persistent : Bool
  deriving DecidableEq, Repr

/-- core/kos_getline.c:387-410 `TERM_EDIT`.  The list of nodes is cut at the current node: `older` and `newer` are what is reached through
`prev` and `next`. -/
structure Ed where
  line : List Nat
  lineSize : Nat
  prompt : List Nat
  inter : Bool
  cols : Nat
  last : Nat
  scroll : Pos
  cursor : Pos
  node : Node
  older : List Node
  newer : List Node
  out : List Term
  deriving DecidableEq, Repr

def Ed.emit (e : Ed) (t : Term) : Ed := { e with out := e.out ++ [t] }

def get (line : List Nat) (i : Nat) : Except Err Nat :=
  match line[i]? with
  | some b => .ok b
  | none => .error .ub

def check (b : Bool) : Except Err Unit := if b then .ok () else .error .assert

/-- core/kos_getline.c:443-446 -/
def isTail (b : Nat) : Bool := ((b ^^^ 128) &&& 192) == 0

/-- core/kos_getline.c:448-463 `is_utf8_finished`; `num` bytes have been looked at -/
def finished (line : List Nat) : Nat → Nat → Except Err Bool
  | 0, num => do
    let c ← get line 0
    .ok (decide (num + 1 ≥ codeLen c))
  | p + 1, num => do
    let c ← get line (p + 1)
    if isTail c then finished line p (num + 1) else .ok (decide (num + 1 ≥ codeLen c))

/-- core/kos_getline.c:467-470: at 0 the index wraps and a byte outside of the buffer is read -/
def back (line : List Nat) : Nat → Except Err Nat
  | 0 => .error .ub
  | i + 1 =>
    if i = 0 then .ok 0
    else do
      let c ← get line i
      if isTail c then back line i else .ok i

/-- core/kos_getline.c:465-474 `decrement_pos` -/
def dec (line : List Nat) (p : Pos) : Except Err Pos := do
  let i ← back line p.phys
  .ok ⟨sub32 p.log 1, i⟩

/-- core/kos_getline.c:476-485 `increment_pos` -/
def inc (line : List Nat) (p : Pos) : Pos :=
  ⟨add32 p.log 1, p.phys + 1 + ((line.drop (p.phys + 1)).takeWhile isTail).length⟩

/-- `n` times `decrement_pos` -/
def decN (line : List Nat) : Nat → Pos → Except Err Pos
  | 0, p => .ok p
  | n + 1, p => do
    let p ← dec line p
    decN line n p

/-- `while (pos.logical > target) decrement_pos` -/
def decTo (line : List Nat) (target : Nat) (p : Pos) : Except Err Pos := decN line (p.log - target) p

/-- core/kos_getline.c:541-551: the number of characters drawn, their size in bytes, and what is left of the columns -/
def draw : Nat → Nat → List Nat → Nat × Nat × Nat
  | 0, n, _ => (0, 0, n)
  | _ + 1, 0, _ => (0, 0, 0)
  | _ + 1, n, [] => (0, 0, n)
  | f + 1, n + 1, _ :: bs =>
    let (c, w, l) := draw f n (bs.dropWhile isTail)
    (c + 1, w + 1 + (bs.takeWhile isTail).length, l)

/-- core/kos_getline.c:553-591: what is written after the prompt; `cur` is the place of the cursor, `d` the result of `draw` -/
def drawn (e : Ed) (cur : Nat) (bs : List Nat) (d : Nat × Nat × Nat) : Except Err (List Term) :=
  if d.2.1 ≠ 0 then do
    check (sub32 cur e.scroll.log ≤ d.1)
    let delta := d.1 - sub32 cur e.scroll.log
    let after := if e.inter then (if d.2.2 ≠ 0 then [Term.erase] else []) ++ (if delta ≠ 0 then [Term.left delta] else []) else []
    .ok (Term.write (bs.take d.2.1) :: after)
  else .ok (if e.inter then [Term.erase] else [])

/-- core/kos_getline.c:513-592 `clear_and_redraw` -/
def redraw (e : Ed) : Except Err Ed := do
  let numLeft := add32 (sub32 e.cols e.prompt.length) 1
  check (e.cursor.log ≤ e.lineSize)
  check (e.cursor.phys ≤ e.line.length)
  check (e.cursor.log ≥ e.scroll.log)
  check (e.cursor.phys ≥ e.scroll.phys)
  let last := sub32 (add32 e.scroll.log numLeft) 1
  let cursor ← decTo e.line last e.cursor
  let bs := e.line.drop e.scroll.phys
  let after ← drawn e cursor.log bs (draw bs.length numLeft bs)
  .ok { e with last := last, cursor := cursor, out := e.out ++ Term.write e.prompt :: after }

/-- core/kos_getline.c:594-628 `move_cursor_to` -/
def moveTo (e : Ed) (p : Pos) : Except Err Ed :=
  if p.log = e.cursor.log then .ok e
  else if p.log ≥ e.scroll.log ∧ p.log ≤ e.last then
    let t := if p.log > e.cursor.log then Term.right (p.log - e.cursor.log) else Term.left (e.cursor.log - p.log)
    .ok { e with cursor := p, out := e.out ++ [t] }
  else do
    let q ← if p.log > e.scroll.log then decTo e.line (add32 (sub32 p.log e.cols) e.prompt.length) p else .ok p
    redraw { e with cursor := p, scroll := q }

/-- core/kos_getline.c:630-642 -/
def goLeft (e : Ed) : Except Err Ed :=
  if e.cursor.phys = 0 then do
    check (e.cursor.log == 0)
    .ok (e.emit .bell)
  else do
    let p ← dec e.line e.cursor
    moveTo e p

/-- core/kos_getline.c:644-656 -/
def goRight (e : Ed) : Except Err Ed :=
  if e.cursor.log ≥ e.lineSize then do
    check (e.cursor.log == e.lineSize)
    .ok (e.emit .bell)
  else moveTo e (inc e.line e.cursor)

/-- core/kos_getline.c:664-677 `get_char_type`: if the character is part of a word -/
def isWord (b : Nat) : Bool := (97 ≤ b && b ≤ 122) || (65 ≤ b && b ≤ 90) || (48 ≤ b && b ≤ 57) || b == 95

def charType (line : List Nat) (i : Nat) : Except Err Bool := do
  check (decide (i < line.length))
  let b ← get line i
  .ok (isWord b)

/-- core/kos_getline.c:679-690 `is_transition`: `none` for `NO_TRANSITION`, `some true` for `WORD_BEGIN` -/
def transition (line : List Nat) (i j : Nat) : Except Err (Option Bool) := do
  check (decide (i < j))
  let a ← charType line i
  let b ← if j < line.length then charType line j else .ok false
  .ok (if a = b then none else some b)

/-- core/kos_getline.c:699-708, with `prev` decremented -/
def beginLoop (line : List Nat) : Nat → Pos → Except Err Pos
  | 0, _ => .error .ub
  | n + 1, pos =>
    if pos.log = 0 then .ok pos
    else do
      let prev ← dec line pos
      let t ← transition line prev.phys pos.phys
      if t = some true then .ok pos else beginLoop line n prev

/-- core/kos_getline.c:692-712 `find_word_begin` -/
def wordBegin (e : Ed) : Except Err Pos :=
  if e.cursor.log ≠ 0 then do
    let p ← dec e.line e.cursor
    beginLoop e.line (p.log + 1) p
  else .ok e.cursor

/-- core/kos_getline.c:722-729 -/
def endLoop (line : List Nat) (size : Nat) : Nat → Pos → Except Err Pos
  | 0, _ => .error .ub
  | n + 1, prev =>
    let pos := inc line prev
    if pos.log < size then do
      let t ← transition line prev.phys pos.phys
      if t = some false then .ok pos else endLoop line size n pos
    else .ok pos

/-- core/kos_getline.c:714-732 `find_word_end` -/
def wordEnd (e : Ed) : Except Err Pos :=
  if e.cursor.log < e.lineSize then endLoop e.line e.lineSize (e.lineSize - e.cursor.log) e.cursor else .ok e.cursor

/-- core/kos_getline.c:796-821 `alloc_history_node` -/
def newNode (bs : List Nat) (chars : Nat) : Node :=
  let cap := (bs.length + 15) / 16 * 16
  ⟨bs, cap, cap % 65536, bs.length % 65536, chars % 65536, false⟩

/-- core/kos_getline.c:866-901 `save_to_temp_history` -/
def save (e : Ed) : Except Err Node :=
  if e.line.length = e.node.size ∧ e.line = e.node.bytes.take e.node.size then .ok e.node
  else
    let n := if e.line.length > e.node.capacity ∨ e.node.persistent then newNode e.line e.lineSize else e.node
    if e.line.length ≤ n.room then
      .ok { n with size := e.line.length % 65536, lineSize := e.lineSize % 65536, bytes := e.line ++ n.bytes.drop e.line.length }
    else .error .ub

/-- core/kos_getline.c:903-939 `restore_from_temp_history` -/
def restore (e : Ed) : Except Err Ed := do
  let line := e.node.bytes.take e.node.size
  let cur : Pos := ⟨e.node.lineSize, line.length⟩
  let scroll ←
    if add32 e.node.lineSize e.prompt.length > e.cols then decTo line (add32 (sub32 cur.log e.cols) e.prompt.length) cur
    else .ok ⟨0, 0⟩
  redraw { e with line := line, lineSize := e.node.lineSize, cursor := cur, scroll := scroll }

/-- core/kos_getline.c:941-957 -/
def goUp (e : Ed) : Except Err Ed :=
  match e.older with
  | [] => .ok (e.emit .bell)
  | o :: os => do
    let n ← save e
    restore { e with node := o, older := os, newer := n :: e.newer }

/-- core/kos_getline.c:959-975 -/
def goDown (e : Ed) : Except Err Ed :=
  match e.newer with
  | [] => .ok (e.emit .bell)
  | o :: os => do
    let n ← save e
    restore { e with node := o, newer := os, older := n :: e.older }

/-- core/kos_getline.c:983-1009 `delete_range` -/
def deleteRange (e : Ed) (b f : Pos) : Except Err Ed := do
  check (b.log ≤ f.log)
  if f.log - b.log = 0 then moveTo e b
  else
    let line := if f.log < e.lineSize then e.line.take b.phys ++ e.line.drop f.phys ++ (e.line.drop (b.phys + (e.line.length - f.phys))) else e.line
    let line := line.take (e.line.length - (f.phys - b.phys))
    let e := { e with line := line, lineSize := sub32 e.lineSize (f.log - b.log) }
    if b.log ≥ e.scroll.log ∧ b.log ≤ e.last then redraw { e with cursor := b }
    else moveTo e b

/-- core/kos_getline.c:1108-1143 `insert_char` -/
def insert (e : Ed) (c : Nat) : Except Err Ed := do
  let p := e.cursor.phys
  check (p ≤ e.line.length)
  let tail := e.line.length - p
  let line := e.line.take p ++ c :: e.line.drop p
  let e := { e with line := line, cursor := { e.cursor with phys := p + 1 } }
  let f ← finished line p 0
  if !f then .ok e
  else
    let e := { e with cursor := { e.cursor with log := add32 e.cursor.log 1 }, lineSize := add32 e.lineSize 1 }
    if e.cursor.log > e.last then redraw { e with scroll := inc line e.scroll }
    else if tail ≠ 0 ∨ isTail c then redraw e
    else .ok (e.emit (.write [c]))

/-- What the keys are for, and changes of the size of the window; which key does what (core/kos_getline.c:1179-1322) is left out. -/
inductive Ev where
  /-- bytes which are typed: a character -/
  | text (bs : List Nat)
  | left | right | wordLeft | wordRight | home | fin | up | down
  | backspace | delete | deleteWordLeft | deleteWordRight | killRight | killAll
  | refresh
  | resize (cols : Nat)
  deriving DecidableEq, Repr

def insertAll (e : Ed) : List Nat → Except Err Ed
  | [] => .ok e
  | b :: bs => do
    let e ← insert e b
    insertAll e bs

/-- core/kos_getline.c:1446-1452 -/
def setCols (e : Ed) (cols : Nat) : Nat :=
  if e.inter then min (max cols (e.prompt.length + 2)) 9999 else 4294967295

def step (e : Ed) : Ev → Except Err Ed
  | .text bs => insertAll e bs
  | .left => goLeft e
  | .right => goRight e
  | .wordLeft => do
    let p ← wordBegin e
    moveTo e p
  | .wordRight => do
    let p ← wordEnd e
    moveTo e p
  | .home => moveTo e ⟨0, 0⟩
  | .fin => moveTo e ⟨e.lineSize, e.line.length⟩
  | .up => goUp e
  | .down => goDown e
  | .backspace =>
    if e.cursor.phys = 0 then do
      check (e.cursor.log == 0)
      .ok (e.emit .bell)
    else do
      let b ← dec e.line e.cursor
      deleteRange e b e.cursor
  | .delete =>
    if e.cursor.phys = e.line.length then .ok (e.emit .bell)
    else deleteRange e e.cursor (inc e.line e.cursor)
  | .deleteWordLeft =>
    if e.cursor.log = 0 then .ok e
    else do
      let b ← wordBegin e
      deleteRange e b e.cursor
  | .deleteWordRight =>
    if e.cursor.log = e.lineSize then .ok e
    else do
      let f ← wordEnd e
      deleteRange e e.cursor f
  | .killRight =>
    if e.cursor.phys = e.line.length then .ok e
    else .ok ({ e with line := e.line.take e.cursor.phys, lineSize := e.cursor.log }.emit .erase)
  | .killAll =>
    if e.lineSize = 0 then .ok e
    else redraw { e with line := [], lineSize := 0, cursor := ⟨0, 0⟩, scroll := ⟨0, 0⟩ }
  | .refresh => redraw (e.emit .clear)
  | .resize cols => redraw { e with cols := setCols e cols }

def steps (e : Ed) : List Ev → Except Err Ed
  | [] => .ok e
  | v :: vs => do
    let e ← step e v
    steps e vs

/-- core/kos_getline.c:1400-1421, 842-864: a new line; `hist` has the lines entered before, the latest first.  The window is measured first. -/
def start (prompt : List Nat) (inter : Bool) (cols : Nat) (hist : List Node) : Except Err Ed :=
  step ⟨[], 0, prompt, inter, 0, 0, ⟨0, 0⟩, ⟨0, 0⟩, newNode [] 0, hist, [], []⟩ (.resize cols)

/-- core/kos_getline.c:1392-1481: a whole call, which ends with Enter; the line and the new history -/
def getline (prompt : List Nat) (inter : Bool) (cols : Nat) (hist : List Node) (evs : List Ev) : Except Err (List Nat × List Node) := do
  let e ← start prompt inter cols hist
  let e ← steps e evs
  .ok (e.line, if e.line.length ≠ 0 then { newNode e.line e.lineSize with persistent := true } :: hist else hist)

end Verif.Line
