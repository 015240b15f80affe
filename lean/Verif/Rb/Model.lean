/-!
Model of core/kos_red_black.c on a heap of nodes.

Pointers are `none` (null) or an address.  A heap maps addresses of live nodes to their contents.  `none` as a result is undefined
behaviour: a null or dangling pointer has been followed, or a loop has not ended within `fuel` iterations.
-/
namespace Verif.Rb

abbrev Ptr := Option Nat

/-- core/kos_red_black.h:8-14 `KOS_RED_BLACK_NODE`. -/
structure Node where
  parent : Ptr
  left : Ptr
  right : Ptr
  red : Nat
  deriving DecidableEq, Repr

abbrev Heap := Nat → Option Node

/-- `*p` -/
def deref (h : Heap) (p : Ptr) : Option Node :=
  match p with
  | none => none
  | some a => h a

/-- Write to a field of `*p`. -/
def modify (h : Heap) (p : Ptr) (f : Node → Node) : Option Heap :=
  match p with
  | none => none
  | some a =>
    match h a with
    | none => none
    | some n => some fun b => if b = a then some (f n) else h b

def setParent (h : Heap) (p q : Ptr) : Option Heap := modify h p fun n => { n with parent := q }
def setLeft (h : Heap) (p q : Ptr) : Option Heap := modify h p fun n => { n with left := q }
def setRight (h : Heap) (p q : Ptr) : Option Heap := modify h p fun n => { n with right := q }
def setRed (h : Heap) (p : Ptr) (c : Nat) : Option Heap := modify h p fun n => { n with red := c }

/-- `p && p->red` -/
def isRed (h : Heap) (p : Ptr) : Option Bool :=
  match p with
  | none => some false
  | some a =>
    match h a with
    | none => none
    | some n => some (n.red != 0)

/-- core/kos_red_black.c:11-26 `kos_red_black_find`; `cmp` compares the sought item with a node. -/
def find (cmp : Nat → Int) (h : Heap) : Nat → Ptr → Option Ptr
  | 0, _ => none
  | fuel + 1, root =>
    match root with
    | none => some none
    | some a =>
      match h a with
      | none => none
      | some n =>
        if cmp a = 0 then some (some a)
        else if cmp a < 0 then find cmp h fuel n.left
        else find cmp h fuel n.right

/-- `while (node->left) node = node->left;` -/
def leftmost (h : Heap) : Nat → Ptr → Option Ptr
  | 0, _ => none
  | fuel + 1, p =>
    match deref h p with
    | none => none
    | some n => if n.left.isSome then leftmost h fuel n.left else some p

/-- core/kos_red_black.c:57-63: `do { prev = node; node = node->parent; } while (node && node->right == prev);` -/
def climb (h : Heap) : Nat → Ptr → Option Ptr
  | 0, _ => none
  | fuel + 1, p =>
    match deref h p with
    | none => none
    | some n =>
      match n.parent with
      | none => some none
      | some q =>
        match h q with
        | none => none
        | some m => if m.right = p then climb h fuel (some q) else some (some q)

/-- Main loop of `kos_red_black_walk`, core/kos_red_black.c:41-63, if the callback never fails: the nodes visited. -/
def walkLoop (h : Heap) (inner : Nat) : Nat → Ptr → Option (List Nat)
  | 0, _ => none
  | fuel + 1, p =>
    match p with
    | none => some []
    | some a =>
      match h a with
      | none => none
      | some n =>
        let next := if n.right.isSome then leftmost h inner n.right else climb h inner (some a)
        match next with
        | none => none
        | some q => (walkLoop h inner fuel q).map (a :: ·)

/-- core/kos_red_black.c:28-67 `kos_red_black_walk`. -/
def walk (h : Heap) (fuel : Nat) (node : Ptr) : Option (List Nat) :=
  match node with
  | none => some []
  | some a =>
    match leftmost h fuel (some a) with
    | none => none
    | some p => walkLoop h fuel fuel p

/-- Loop of `insert_binary`, core/kos_red_black.c:75-81: the last node and whether to go left of it. -/
def descend (cmp : Nat → Nat → Int) (h : Heap) (new : Nat) : Nat → Nat → Option (Nat × Bool)
  | 0, _ => none
  | fuel + 1, a =>
    match h a with
    | none => none
    | some n =>
      if cmp new a < 0 then
        match n.left with
        | none => some (a, true)
        | some b => descend cmp h new fuel b
      else
        match n.right with
        | none => some (a, false)
        | some b => descend cmp h new fuel b

/-- core/kos_red_black.c:69-85 `insert_binary`. -/
def insertBinary (cmp : Nat → Nat → Int) (fuel : Nat) (h : Heap) (root : Ptr) (new : Nat) : Option (Heap × Ptr) :=
  match root with
  | none => do
    let h ← setParent h (some new) none
    pure (h, some new)
  | some r => do
    let (p, goLeft) ← descend cmp h new fuel r
    let h ← if goLeft then setLeft h (some p) (some new) else setRight h (some p) (some new)
    let h ← setParent h (some new) (some p)
    pure (h, root)

/-- core/kos_red_black.c:87-111 `left_rotate` -/
def leftRotate (h : Heap) (root node : Ptr) : Option (Heap × Ptr) := do
  let other := (← deref h node).right
  let h ← setRight h node (← deref h other).left
  let h ← if (← deref h other).left.isSome then setParent h (← deref h other).left node else pure h
  let h ← setParent h other (← deref h node).parent
  let parent := (← deref h node).parent
  let (h, root) ←
    if parent.isSome then
      if node = (← deref h parent).left then do pure (← setLeft h parent other, root)
      else do pure (← setRight h parent other, root)
    else pure (h, other)
  let h ← setLeft h other node
  let h ← setParent h node other
  pure (h, root)

/-- core/kos_red_black.c:113-137 `right_rotate` -/
def rightRotate (h : Heap) (root node : Ptr) : Option (Heap × Ptr) := do
  let other := (← deref h node).left
  let h ← setLeft h node (← deref h other).right
  let h ← if (← deref h other).right.isSome then setParent h (← deref h other).right node else pure h
  let h ← setParent h other (← deref h node).parent
  let parent := (← deref h node).parent
  let (h, root) ←
    if parent.isSome then
      if node = (← deref h parent).right then do pure (← setRight h parent other, root)
      else do pure (← setLeft h parent other, root)
    else pure (h, other)
  let h ← setRight h other node
  let h ← setParent h node other
  pure (h, root)

/-- One iteration of the loop of `kos_red_black_insert`, core/kos_red_black.c:151-189, with the parent and its parent. -/
def insertStep (h : Heap) (root new parent pp : Ptr) : Option (Heap × Ptr × Ptr) := do
  let ppLeft := (← deref h pp).left
  let ppRight := (← deref h pp).right
  if parent = ppLeft then
    if ← isRed h ppRight then
      let h ← setRed h ppLeft 0
      let h ← setRed h ppRight 0
      let h ← setRed h pp 1
      pure (h, root, pp)
    else
      let (h, root, new) ←
        if new = (← deref h parent).right then do
          let (h, root) ← leftRotate h root parent
          pure (h, root, parent)
        else pure (h, root, new)
      let parent := (← deref h new).parent
      let h ← setRed h parent 0
      let pp := (← deref h parent).parent
      let h ← setRed h pp 1
      let (h, root) ← rightRotate h root pp
      pure (h, root, new)
  else
    if ← isRed h ppLeft then
      let h ← setRed h ppLeft 0
      let h ← setRed h ppRight 0
      let h ← setRed h pp 1
      pure (h, root, pp)
    else
      let (h, root, new) ←
        if new = (← deref h parent).left then do
          let (h, root) ← rightRotate h root parent
          pure (h, root, parent)
        else pure (h, root, new)
      let parent := (← deref h new).parent
      let h ← setRed h parent 0
      let pp := (← deref h parent).parent
      let h ← setRed h pp 1
      let (h, root) ← leftRotate h root pp
      pure (h, root, new)

/-- Loop of `kos_red_black_insert`, core/kos_red_black.c:150-190. -/
def insertLoop : Nat → Heap → Ptr → Ptr → Option (Heap × Ptr × Ptr)
  | 0, _, _, _ => none
  | fuel + 1, h, root, new =>
    if new ≠ root then do
      let parent := (← deref h new).parent
      let p ← deref h parent
      if p.red ≠ 0 then
        let (h, root, new) ← insertStep h root new parent p.parent
        insertLoop fuel h root new
      else pure (h, root, new)
    else pure (h, root, new)

/-- core/kos_red_black.c:139-194 `kos_red_black_insert` -/
def insert (cmp : Nat → Nat → Int) (fuel : Nat) (h : Heap) (root : Ptr) (new : Nat) : Option (Heap × Ptr) := do
  let h ← setRed h (some new) 1
  let h ← setLeft h (some new) none
  let h ← setRight h (some new) none
  let (h, root) ← insertBinary cmp fuel h root new
  let (h, root, n) ← insertLoop fuel h root (some new)
  if n = root then
    let h ← setRed h n 0
    pure (h, root)
  else pure (h, root)

/-- First part of `kos_red_black_delete`, core/kos_red_black.c:205-252: a node with two children changes places with its
successor.  The assertion (246) is checked. -/
def swapSucc (fuel : Nat) (h : Heap) (root : Ptr) (node : Ptr) : Option (Heap × Ptr) := do
  let n ← deref h node
  if n.left.isSome ∧ n.right.isSome then
    let succ ← leftmost h fuel n.right
    let a := (← deref h node).left
    let h ← setLeft h succ a
    let h ← setLeft h node none
    let h ← setParent h a succ
    let a := (← deref h node).right
    let b := (← deref h succ).right
    let h ← setRight h node b
    let h ← if b.isSome then setParent h b node else pure h
    let h ←
      if a = succ then setRight h succ node
      else do
        let h ← setRight h succ a
        setParent h a succ
    let a := (← deref h node).parent
    let b := (← deref h succ).parent
    let h ← setParent h succ a
    let h ← setParent h node (if b = node then succ else b)
    let (h, root) ←
      if a.isSome then
        if (← deref h a).left = node then do pure (← setLeft h a succ, root)
        else do pure (← setRight h a succ, root)
      else pure (h, succ)
    let h ←
      if b ≠ node then
        if (← deref h b).left ≠ succ then none
        else setLeft h b node
      else pure h
    let color := (← deref h node).red
    let h ← setRed h node (← deref h succ).red
    let h ← setRed h succ color
    pure (h, root)
  else pure (h, root)

/-- One iteration of the loop of `kos_red_black_delete` for a node with a parent, core/kos_red_black.c:306-356.  The result
includes the next node.  The assertions (309, 312) are checked. -/
def deleteStep (h : Heap) (root node parent : Ptr) : Option (Heap × Ptr × Ptr) := do
  let siblingLeft := !((← deref h parent).left = node)
  let p ← deref h parent
  let sibling := if siblingLeft then p.left else p.right
  if (← deref h sibling).red ≠ 0 then
    if (← deref h parent).red ≠ 0 then none
    else
      let (h, root) ← if siblingLeft then rightRotate h root parent else leftRotate h root parent
      let h ← setRed h parent 1
      let h ← setRed h sibling 0
      pure (h, root, node)
  else
    let leftRed ← isRed h (← deref h sibling).left
    let rightRed ← isRed h (← deref h sibling).right
    if siblingLeft ∧ leftRed then
      let (h, root) ← rightRotate h root parent
      let h ← setRed h sibling (← deref h parent).red
      let h ← setRed h parent 0
      let h ← setRed h (← deref h sibling).left 0
      let h ← setRed h node 0
      pure (h, root, parent)
    else if !siblingLeft ∧ rightRed then
      let (h, root) ← leftRotate h root parent
      let h ← setRed h sibling (← deref h parent).red
      let h ← setRed h parent 0
      let h ← setRed h (← deref h sibling).right 0
      let h ← setRed h node 0
      pure (h, root, parent)
    else if leftRed then
      let h ← setRed h (← deref h sibling).left 0
      let h ← setRed h sibling 1
      let (h, root) ← rightRotate h root sibling
      pure (h, root, node)
    else if rightRed then
      let h ← setRed h (← deref h sibling).right 0
      let h ← setRed h sibling 1
      let (h, root) ← leftRotate h root sibling
      pure (h, root, node)
    else
      let h ← setRed h parent (if (← deref h parent).red ≠ 0 then 0 else 2)
      let h ← setRed h node 0
      let h ← setRed h sibling 1
      pure (h, root, parent)

/-- Loop of `kos_red_black_delete`, core/kos_red_black.c:294-357. -/
def deleteLoop : Nat → Heap → Ptr → Ptr → Option (Heap × Ptr)
  | 0, _, _, _ => none
  | fuel + 1, h, root, node => do
    let n ← deref h node
    if n.red = 2 then
      if n.parent.isSome then
        let (h, root, node) ← deleteStep h root node n.parent
        deleteLoop fuel h root node
      else
        let h ← setRed h node 0
        pure (h, root)
    else pure (h, root)

/-- Middle part of `kos_red_black_delete`, core/kos_red_black.c:254-291: unlink a node with at most one child.  `lf` is the address
of the local variable `leaf`.  The result includes the node which replaces it. -/
def unlink (lf : Nat) (h : Heap) (root node : Ptr) : Option (Heap × Ptr × Ptr) := do
  let n ← deref h node
  let succ := if n.left.isSome then n.left else n.right
  let (h, succ) ←
    if succ.isSome then pure (h, succ)
    else do
      let h ← setLeft h (some lf) none
      let h ← setRight h (some lf) none
      let h ← setRed h (some lf) 0
      pure (h, some lf)
  let parent := (← deref h node).parent
  let (h, root) ←
    if parent.isSome then
      if (← deref h parent).left = node then do pure (← setLeft h parent succ, root)
      else do pure (← setRight h parent succ, root)
    else pure (h, succ)
  let h ← setParent h succ parent
  let h ←
    if parent.isSome then
      if (← deref h node).red ≠ 0 then
        if succ = some lf then setRed h (some lf) 0 else pure h
      else if (← deref h succ).red = 1 then setRed h succ 0
      else setRed h succ 2
    else pure h
  pure (h, root, succ)

/-- Last part of `kos_red_black_delete`, core/kos_red_black.c:359-376: the dummy leaf is removed and the root made black. -/
def removeLeaf (lf : Nat) (h : Heap) (root : Ptr) : Option (Heap × Ptr) := do
  let l ← deref h (some lf)
  let (h, root) ←
    if l.red ≠ 3 then
      if l.red ≠ 0 then none
      else if l.parent.isSome then
        if (← deref h l.parent).left = some lf then do pure (← setLeft h l.parent none, root)
        else do pure (← setRight h l.parent none, root)
      else pure (h, none)
    else pure (h, root)
  let h ← if root.isSome then setRed h root 0 else pure h
  pure (h, root)

/-- core/kos_red_black.c:196-377 `kos_red_black_delete` -/
def delete (fuel lf : Nat) (h : Heap) (root : Ptr) (node : Nat) : Option (Heap × Ptr) := do
  let h : Heap := fun b => if b = lf then some ⟨none, none, none, 3⟩ else h b
  let (h, root) ← swapSucc fuel h root (some node)
  let (h, root, n) ← unlink lf h root (some node)
  let (h, root) ← deleteLoop fuel h root n
  removeLeaf lf h root

end Verif.Rb
