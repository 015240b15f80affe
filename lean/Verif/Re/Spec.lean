/-!
# What regular expressions mean

A specification which does not use the compiler or the matcher: trees of regular
expressions with the text which shows them, the places where an expression
matches (`Lang`), and all matches in the order of preference (`outcomes`).
-/

namespace Verif.Re.Spec

/-- The string, where the search began, and where the string is cut off. -/
structure Subject where
  str : List Nat
  lo : Nat
  hi : Nat

/-- The character at a place in front of the cut. -/
def Subject.at (S : Subject) (i : Nat) : Option Nat := if i < S.hi then S.str[i]? else none

/-- The character in front of a place. -/
def Subject.before (S : Subject) (i : Nat) : Option Nat := if 0 < i then S.str[i - 1]? else none

def lineBreak (c : Option Nat) : Bool := c == some 10 || c == some 13

/-- Letters, digits and the underscore of ASCII. -/
def wordChar (c : Nat) : Bool :=
  (97 ≤ c && c ≤ 122) || (65 ≤ c && c ≤ 90) || (48 ≤ c && c ≤ 57) || c == 95

def word (c : Option Nat) : Bool := c.any wordChar

/-- A control character with a letter of its own: its letter and its code. -/
inductive Control where
  | tab | newline | vertical | feed | «return»
  deriving DecidableEq

def Control.letter : Control → Nat
  | .tab => 116 | .newline => 110 | .vertical => 118 | .feed => 102 | .return => 114

def Control.code : Control → Nat
  | .tab => 9 | .newline => 10 | .vertical => 11 | .feed => 12 | .return => 13

/-- A character in brackets. -/
inductive ClassChar where
  | raw (c : Nat)
  | escaped (c : Nat)
  | control (c : Control)

def ClassChar.code : ClassChar → Nat
  | .raw c => c | .escaped c => c | .control c => c.code

def ClassChar.text : ClassChar → List Nat
  | .raw c => [c] | .escaped c => [92, c] | .control c => [92, c.letter]

/-- Not `]`, `-` and the backslash, unless escaped. -/
def ClassChar.ok : ClassChar → Prop
  | .raw c => c ≠ 93 ∧ c ≠ 45 ∧ c ≠ 92
  | .escaped c => c = 91 ∨ c = 93 ∨ c = 40 ∨ c = 41 ∨ c = 94 ∨ c = 34 ∨ c = 92 ∨ c = 45
  | .control _ => True

/-- A character or a range of characters in brackets. -/
inductive ClassItem where
  | one (c : ClassChar)
  | range (a b : ClassChar)

def ClassItem.first : ClassItem → Nat
  | .one c => c.code | .range a _ => a.code

def ClassItem.last : ClassItem → Nat
  | .one c => c.code | .range _ b => b.code

def ClassItem.text : ClassItem → List Nat
  | .one c => c.text | .range a b => a.text ++ 45 :: b.text

def ClassItem.ok : ClassItem → Prop
  | .one c => c.ok | .range a b => a.ok ∧ b.ok ∧ a.code ≤ b.code

/-- Do the items list a character? -/
def listed (items : List ClassItem) (c : Nat) : Bool := items.any fun i => i.first ≤ c && c ≤ i.last

/-- The characters `b` to `e` and the ones beside them are listed, and behind the
next character which is not listed there is another listed one. -/
def swallowed (items : List ClassItem) (b e : Nat) : Prop :=
  0 < b ∧ (∀ c, b ≤ c + 1 → c ≤ e + 1 → listed items c = true) ∧
    ∃ u v, e < u ∧ u < v ∧ listed items u = false ∧ listed items v = true

/-- No item is swallowed by the items in front of it. -/
def orderly (items : List ClassItem) : Prop :=
  ∀ pre i post, items = pre ++ i :: post → ¬ swallowed pre i.first i.last

/-- The escapes for boundaries of words. -/
inductive Boundary where
  | begin | «end» | either | neither

def Boundary.letter : Boundary → Nat
  | .begin => 60 | .end => 62 | .either => 98 | .neither => 66

def Boundary.holds : Boundary → Bool → Bool → Bool
  | .begin, prev, next => !prev && next
  | .end, prev, next => prev && !next
  | .either, prev, next => prev != next
  | .neither, prev, next => prev == next

/-- An expression for one character or for a place. -/
inductive Atom where
  | char (c : Nat)
  | escaped (c : Nat)
  | control (c : Control)
  | any
  | lineBegin
  | lineEnd
  | boundary (b : Boundary)
  | digit (neg : Bool)
  | word (neg : Bool)
  | cls (neg : Bool) (items : List ClassItem)

def Atom.text : Atom → List Nat
  | .char c => [c]
  | .escaped c => [92, c]
  | .control c => [92, c.letter]
  | .any => [46]
  | .lineBegin => [94]
  | .lineEnd => [36]
  | .boundary b => [92, b.letter]
  | .digit neg => [92, if neg then 68 else 100]
  | .word neg => [92, if neg then 87 else 119]
  | .cls neg items => [91] ++ (if neg then [94] else []) ++ items.flatMap ClassItem.text ++ [93]

/-- The characters which mean something else than themselves:
`. * + ? ^ $ \ | { ( ) [`. -/
def special (c : Nat) : Prop :=
  c = 46 ∨ c = 42 ∨ c = 43 ∨ c = 63 ∨ c = 94 ∨ c = 36 ∨ c = 92 ∨ c = 124 ∨ c = 123 ∨ c = 40 ∨ c = 41 ∨ c = 91

/-- The characters which can be escaped: the special ones, `]` and `"`. -/
def Atom.ok : Atom → Prop
  | .char c => ¬ special c ∧ c < 4294967295
  | .escaped c => special c ∨ c = 93 ∨ c = 34
  | .cls neg items => items ≠ [] ∧ (∀ i ∈ items, i.ok) ∧
      (neg = false → (items.flatMap ClassItem.text).head? ≠ some 94)
  | _ => True

/-- The place behind a match of an atom at a place. -/
def Atom.go (S : Subject) : Atom → Nat → Option Nat
  | .char c, i => if S.at i = some c then some (i + 1) else none
  | .escaped c, i => if S.at i = some c then some (i + 1) else none
  | .control c, i => if S.at i = some c.code then some (i + 1) else none
  | .any, i => if (S.at i).isSome then some (i + 1) else none
  | .lineBegin, i => if i ≤ S.lo || lineBreak (S.before i) then some i else none
  | .lineEnd, i => if S.at i == none || lineBreak (S.at i) then some i else none
  | .boundary b, i => if b.holds (Spec.word (S.before i)) (Spec.word (S.at i)) then some i else none
  | .digit neg, i => match S.at i with
    | some c => if (48 ≤ c && c ≤ 57) != neg then some (i + 1) else none
    | none => none
  | .word neg, i => match S.at i with
    | some c => if wordChar c != neg then some (i + 1) else none
    | none => none
  | .cls neg items, i => match S.at i with
    | some c => if listed items c != neg then some (i + 1) else none
    | none => none

/-- How often something is repeated. -/
inductive Times where
  | star
  | plus
  | opt
  | exactly (ds : List Nat)
  | atLeast (ds : List Nat)
  | between (ds es : List Nat)

/-- The number shown by digits. -/
def value (ds : List Nat) : Nat := ds.foldl (fun v d => v * 10 + (d - 48)) 0

def Times.min : Times → Nat
  | .star => 0 | .plus => 1 | .opt => 0
  | .exactly ds => value ds | .atLeast ds => value ds | .between ds _ => value ds

def Times.max : Times → Option Nat
  | .star => none | .plus => none | .opt => some 1
  | .exactly ds => some (value ds) | .atLeast _ => none | .between _ es => some (value es)

def Times.text : Times → List Nat
  | .star => [42] | .plus => [43] | .opt => [63]
  | .exactly ds => 123 :: ds ++ [125]
  | .atLeast ds => 123 :: ds ++ [44, 125]
  | .between ds es => 123 :: ds ++ 44 :: es ++ [125]

def numeral (ds : List Nat) : Prop := ds ≠ [] ∧ (∀ d ∈ ds, 48 ≤ d ∧ d ≤ 57) ∧ value ds ≤ 65535

def Times.ok : Times → Prop
  | .exactly ds => numeral ds ∧ value ds ≠ 0
  | .atLeast ds => numeral ds
  | .between ds es => numeral ds ∧ numeral es ∧ value ds ≤ value es ∧ value es ≠ 0
  | _ => True

/-- A multiplicity: how often, and whether few turns are preferred. -/
structure Quant where
  times : Times
  lazy : Bool

def qtext : Option Quant → List Nat
  | none => []
  | some q => q.times.text ++ if q.lazy then [63] else []

def qok : Option Quant → Prop
  | none => True
  | some q => q.times.ok

/-- A regular expression: an empty one, one which begins with an atom or with a
group, or alternatives. -/
inductive Regex where
  | empty
  | atom (a : Atom) (q : Option Quant) (next : Regex)
  | group (capture : Bool) (body : Regex) (q : Option Quant) (next : Regex)
  | alt (l r : Regex)

/-- Not alternatives. -/
def Regex.single : Regex → Prop
  | .alt _ _ => False
  | _ => True

def Regex.ok : Regex → Prop
  | .empty => True
  | .atom a q s => a.ok ∧ qok q ∧ s.single ∧ s.ok
  | .group _ b q s => b.ok ∧ qok q ∧ s.single ∧ s.ok
  | .alt l r => l.single ∧ l.ok ∧ r.ok

def Regex.text : Regex → List Nat
  | .empty => []
  | .atom a q s => a.text ++ qtext q ++ s.text
  | .group cap b q s => [40] ++ (if cap then [] else [63, 58]) ++ b.text ++ [41] ++ qtext q ++ s.text
  | .alt l r => l.text ++ 124 :: r.text

/-- The number of capturing groups. -/
def Regex.groups : Regex → Nat
  | .empty => 0
  | .atom _ _ s => s.groups
  | .group cap b _ s => (if cap then 1 else 0) + b.groups + s.groups
  | .alt l r => l.groups + r.groups

/-- All character classes are orderly. -/
def Regex.orderly : Regex → Prop
  | .empty => True
  | .atom (.cls _ items) _ s => Spec.orderly items ∧ s.orderly
  | .atom _ _ s => s.orderly
  | .group _ b _ s => b.orderly ∧ s.orderly
  | .alt l r => l.orderly ∧ r.orderly

/-- The size of an atom. -/
def Atom.size : Atom → Nat
  | .char c => if c < 65536 then 2 else 3
  | .any => 1
  | .lineBegin => 1
  | .lineEnd => 1
  | _ => 2

/-- The size of an expression in 16-bit words. -/
def Regex.size : Regex → Nat
  | .empty => 0
  | .atom a q s => a.size + (if q.isSome then 9 else 0) + s.size
  | .group _ b q s => b.size + 4 + (if q.isSome then 9 else 0) + s.size
  | .alt l r => l.size + 4 + r.size

/-! ### Where an expression matches -/

/-- `n` matches one after the other. -/
def Chain (R : Nat → Nat → Prop) : Nat → Nat → Nat → Prop
  | 0, i, j => i = j
  | n + 1, i, j => ∃ m, R i m ∧ Chain R n m j

/-- Repeated matches. -/
def Repeated (R : Nat → Nat → Prop) : Option Quant → Nat → Nat → Prop
  | none, i, j => R i j
  | some q, i, j => ∃ n, q.times.min ≤ n ∧ (∀ m, q.times.max = some m → n ≤ m) ∧ Chain R n i j

/-- The expression matches from `i` up to `j`. -/
def Lang (S : Subject) : Regex → Nat → Nat → Prop
  | .empty, i, j => i = j
  | .atom a q s, i, j => ∃ m, Repeated (fun x y => a.go S x = some y) q i m ∧ Lang S s m j
  | .group _ b q s, i, j => ∃ m, Repeated (Lang S b) q i m ∧ Lang S s m j
  | .alt l r, i, j => Lang S l i j ∨ Lang S r i j

/-! ### All matches, the preferred ones first -/

/-- The place behind a match and the places of the groups. -/
structure State where
  pos : Nat
  groups : Nat → Option (Nat × Nat)

/-- Group `g` has matched from `i` up to the current place. -/
def State.capture (st : State) (g i : Nat) : State :=
  { st with groups := fun k => if k = g then some (i, st.pos) else st.groups k }

/-- Up to `n` turns. -/
def upTo (lazy : Bool) (f : State → List State) : Nat → State → List State
  | 0, st => [st]
  | n + 1, st =>
    let again := (f st).flatMap (upTo lazy f n)
    if lazy then st :: again else again ++ [st]

/-- `m` turns and up to `n` more. -/
def turns (lazy : Bool) (f : State → List State) (n : Nat) : Nat → State → List State
  | 0, st => upTo lazy f n st
  | m + 1, st => (f st).flatMap (turns lazy f n m)

/-- Without limit, 65535 turns are made, the greatest length of a string. -/
def Times.limit (t : Times) : Nat := t.max.getD 65535

def repeated (f : State → List State) : Option Quant → State → List State
  | none, st => f st
  | some q, st => turns q.lazy f (q.times.limit - q.times.min) q.times.min st

/-- All matches of an expression whose first group has number `g`. -/
def outcomes (S : Subject) : Regex → Nat → State → List State
  | .empty, _, st => [st]
  | .atom a q s, g, st =>
    (repeated (fun st => match a.go S st.pos with
      | some j => [{ st with pos := j }]
      | none => []) q st).flatMap (outcomes S s g)
  | .group true b q s, g, st =>
    (repeated (fun st => (outcomes S b (g + 1) st).map fun st' => st'.capture g st.pos) q st).flatMap
      (outcomes S s (g + 1 + b.groups))
  | .group false b q s, g, st =>
    (repeated (outcomes S b g) q st).flatMap (outcomes S s (g + b.groups))
  | .alt l r, g, st => outcomes S l g st ++ outcomes S r (g + l.groups) st

/-- The preferred match at a place. -/
def best (S : Subject) (r : Regex) (i : Nat) : Option State :=
  (outcomes S r 0 ⟨i, fun _ => none⟩).head?

end Verif.Re.Spec
