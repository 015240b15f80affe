/-
The call stack of a thread: core/kos_stack.c:25-401, the use of it by core/kos_vm.c:923-1125 `prepare_call` and 1127-1164 `finish_call`, and
core/kos_vm.c:1275-1308 `set_closure_stack_size`.

A stack object is a list of slots: slot 0 links to the stack object below, frames take as many slots as they have registers and four more, and
a stack object which belongs to a generator or a closure may be referred to by one slot.  The contents of registers are left out.
-/
namespace Verif.Stack

/-- What is on a stack object, above slot 0. -/
inductive Item
  /-- a frame with `n` registers -/
  | frame (n : Nat)
  /-- a reentrant stack object -/
  | ptr (id : Nat)
  deriving Repr, DecidableEq

/-- KOS_STACK_EXTRA = 4 -/
def Item.size : Item → Nat
  | .frame n => n + 4
  | .ptr _ => 1

def sizes : List Item → Nat
  | [] => 0
  | i :: l => i.size + sizes l

/-- KOS_STACK, inc/kos_instance.h:148-155; the topmost item comes first. -/
structure Obj where
  re    : Bool
  cap   : Nat
  link  : Option Nat
  items : List Item
  deriving Repr, DecidableEq

/-- The number of slots, with slot 0. -/
def Obj.size (o : Obj) : Nat := 1 + sizes o.items

/-- KOS_MAX_STACK_DEPTH, the capacity of a stack object of KOS_STACK_OBJ_SIZE bytes, and whether each allocation succeeds. -/
structure Cfg where
  max   : Nat
  cap   : Nat
  alloc : Nat → Bool

/-- The fields `stack`, `regs_idx` and `stack_depth` of a context, with all stack objects; `next` counts allocations. -/
structure Ctx where
  heap  : Nat → Option Obj
  next  : Nat
  cur   : Option Nat
  regs  : Nat
  depth : Nat

def Ctx.start : Ctx := ⟨fun _ => none, 0, none, 0, 0⟩

def Ctx.put (c : Ctx) (i : Nat) (o : Obj) : Ctx := { c with heap := fun j => if j = i then some o else c.heap j }

/-- Result of a function; `bad` is a failed assertion or an access to something which is not there. -/
inductive Res
  | bad
  | fail (c : Ctx)
  | ok (c : Ctx)

/-- Go on after success. -/
def Res.bind (r : Res) (k : Ctx → Res) : Res :=
  match r with
  | .bad => .bad
  | .fail c => .fail c
  | .ok c => k c

/-- core/kos_stack.c:119-128 `push_new_stack` with 94-117 `init_stack` and 75-92 `chain_stack_frame`.  It is called when the current stack
object, if there is one, is not reentrant, so that there is nothing to unchain. -/
def pushNew (g : Cfg) (c : Ctx) : Res :=
  if g.alloc c.next then
    match c.cur with
    | none => .ok { (c.put c.next ⟨false, g.cap, none, []⟩) with next := c.next + 1, cur := some c.next }
    | some i =>
      match c.heap i with
      | none => .bad
      | some o =>
        if o.re then .bad
        else .ok { (c.put c.next ⟨false, g.cap, some i, []⟩) with next := c.next + 1, cur := some c.next, depth := c.depth + 1 }
  else .fail { c with next := c.next + 1 }

/-- core/kos_stack.c:57-69: `r`, which is reentrant, is put on the current stack object. -/
def putPtr (r : Nat) (c : Ctx) : Res :=
  match c.cur with
  | none => .bad
  | some i =>
    match c.heap i with
    | none => .bad
    | some o => if o.size < o.cap then .ok (c.put i { o with items := .ptr r :: o.items }) else .bad

/-- core/kos_stack.c:25-73 -/
def unchain (g : Cfg) (c : Ctx) : Res :=
  match c.cur with
  | none => .bad
  | some r =>
    match c.heap r with
    | none => .bad
    | some o =>
      if o.re then
        match o.link with
        | none => .bad
        | some i =>
          match c.heap i with
          | none => .bad
          | some old =>
            if old.size = old.cap then
              match pushNew g { c with cur := some i } with
              | .bad => .bad
              | .fail c => .fail { c with cur := some r }
              | .ok c => putPtr r (c.put r { o with link := c.cur })
            else putPtr r { c with cur := some i }
      else .ok c

/-- core/kos_stack.c:75-92, for a stack object which is in the heap. -/
def chain (g : Cfg) (r : Nat) (c : Ctx) : Res :=
  (unchain g c).bind fun c =>
    match c.heap r with
    | none => .bad
    | some o => .ok { (c.put r { o with link := c.cur }) with cur := some r, depth := c.depth + o.size }

/-- core/kos_stack.c:265-286: a frame with `n` registers on the current stack object. -/
def place (n : Nat) (c : Ctx) : Res :=
  match c.cur with
  | none => .bad
  | some i =>
    match c.heap i with
    | none => .bad
    | some o =>
      if o.size + (n + 4) ≤ o.cap then
        .ok { (c.put i { o with items := .frame n :: o.items }) with regs := o.size + 3, depth := c.depth + (n + 4) }
      else .bad

/-- core/kos_stack.c:215-216 -/
def makeRoom (g : Cfg) (n : Nat) (c : Ctx) : Res :=
  match c.cur with
  | none => .bad
  | some i =>
    match c.heap i with
    | none => .bad
    | some o => if o.cap < o.size + (n + 4) then pushNew g c else .ok c

/-- core/kos_stack.c:198-223, a function which is not a generator and has no closure. -/
def pushPlain (g : Cfg) (n : Nat) (c : Ctx) : Res :=
  if g.max < c.depth + (n + 4) then .fail c
  else
    match c.cur with
    | none => (pushNew g c).bind (place n)
    | some i =>
      match c.heap i with
      | none => .bad
      | some o =>
        if o.cap < o.size + (n + 4) then ((unchain g c).bind (makeRoom g n)).bind (place n)
        else place n c

/-- core/kos_stack.c:235-236 and 252-253 -/
def ensure (g : Cfg) (c : Ctx) : Res := if c.cur = none then pushNew g c else .ok c

/-- core/kos_stack.c:224-248, a generator which was made before; `r` is its stack object. -/
def pushGen (g : Cfg) (r : Nat) (c : Ctx) : Res :=
  match c.heap r with
  | some ⟨_, _, _, .frame n :: _⟩ =>
    if g.max < c.depth + (n + 4) then .fail c
    else ((ensure g c).bind (chain g r)).bind fun c => .ok { c with regs := 4 }
  | _ => .bad

/-- core/kos_stack.c:130-150 -/
def pushReentrant (g : Cfg) (n : Nat) (c : Ctx) : Res :=
  if g.alloc c.next then chain g c.next { (c.put c.next ⟨true, n + 5, none, []⟩) with next := c.next + 1 }
  else .fail { c with next := c.next + 1 }

/-- core/kos_stack.c:249-263, a new generator or a closure. -/
def pushNewGen (g : Cfg) (n : Nat) (c : Ctx) : Res :=
  if g.max < c.depth + (n + 4) then .fail c
  else ((ensure g c).bind (pushReentrant g n)).bind (place n)

/-- core/kos_stack.c:359-400: the stack object `i` is the topmost which is not reentrant, and is not empty. -/
def settle (i : Nat) (c : Ctx) : Res :=
  match c.heap i with
  | none => .bad
  | some o =>
    match o.items with
    | [] => .bad
    -- 364-374
    | .frame n :: _ => if 0 < n then .ok { c with cur := some i, regs := o.size - 1 - n } else .bad
    -- 375-395
    | .ptr r :: l =>
      match c.heap r with
      | none => .bad
      | some q =>
        if o.re = false ∧ q.re = true ∧ 4 < q.size then
          .ok { ((c.put i { o with items := l }).put r { q with link := some i }) with cur := some r, regs := 4 }
        else .bad

/-- core/kos_stack.c:339-400: go down while stack objects are empty.  The number of steps is bounded by that of stack objects. -/
def descend : Nat → Nat → Ctx → Res
  | 0, _, _ => .bad
  | k + 1, i, c =>
    match c.heap i with
    | none => .bad
    | some o =>
      if o.size = 1 then
        match o.link with
        | none => if c.depth = 0 then .ok { c with cur := none, regs := 0 } else .bad
        | some j => if c.depth = 0 then .bad else descend k j { c with depth := c.depth - 1 }
      else settle i c

/-- core/kos_stack.c:294-401 -/
def pop (c : Ctx) : Res :=
  match c.cur with
  | none => .bad
  | some i =>
    match c.heap i with
    | none => .bad
    | some o =>
      match o.items with
      -- 305: size is 1
      | [] => if o.link = none then descend (c.next + 1) i c else .bad
      | .ptr _ :: _ => .bad
      | .frame n :: l =>
        if o.re then
          -- 323-336
          match o.link with
          | none => .bad
          | some j => if o.size = n + 5 ∧ o.size ≤ c.depth then descend (c.next + 1) j { c with depth := c.depth - o.size } else .bad
        else
          -- 309-322
          let num := o.size - c.regs - 1
          if c.regs < o.size ∧ num = n ∧ num + 4 ≤ c.depth then
            descend (c.next + 1) i { (c.put i { o with items := l }) with depth := c.depth - (num + 4) }
          else .bad

/-- core/kos_vm.c:1275-1308, when the function has returned or thrown (KOS_GENERATOR_DONE); `m` is its closure size. -/
def shrink (m : Nat) (c : Ctx) : Res :=
  match c.cur with
  | none => .bad
  | some i =>
    match c.heap i with
    | none => .bad
    | some o =>
      if o.re then
        if m + 5 ≤ o.size ∧ o.size - (m + 5) ≤ c.depth then .ok { (c.put i { o with items := [.frame m] }) with depth := c.depth - (o.size - (m + 5)) } else .bad
      else .ok c

/-- core/kos_vm.c:1115-1116: after a failure, `prepare_call` pops if the current stack object or the index of registers has changed. -/
def cleanup (c : Ctx) (r : Res) : Res :=
  match r with
  | .fail c' =>
    if c'.cur ≠ c.cur ∨ c'.regs ≠ c.regs then
      match pop c' with
      | .bad => .bad
      | .fail c'' => .fail c''
      | .ok c'' => .fail c''
    else .fail c'
  | r => r

/-- What is done with the stack. -/
inductive Op
  /-- call a function with `n` registers -/
  | call (n : Nat)
  /-- call a function whose variables are captured, or make a generator -/
  | enter (n : Nat)
  /-- resume the generator whose stack object is `r` -/
  | resume (r : Nat)
  /-- `yield`, or leaving a generator which was just made -/
  | suspend
  /-- return or throw; `m` is the closure size -/
  | ret (m : Nat)
  deriving Repr, DecidableEq

def doOp (g : Cfg) (c : Ctx) : Op → Res
  | .call n => cleanup c (pushPlain g n c)
  | .enter n => cleanup c (pushNewGen g n c)
  | .resume r => cleanup c (pushGen g r c)
  | .suspend => pop c
  | .ret m => (shrink m c).bind pop

end Verif.Stack
