/-
Arrays of pending jumps of a condition: core/kos_compiler.c:1692-1746.

Entries are 32-bit numbers; an entry of the storage which was never written is `none`.  `num_jumps` and `capacity` have 16 bits.
-/
namespace Verif.Ctl

structure JumpArray where
  num : Nat
  cap : Nat
  /-- The storage which `entries` points to: `local`, or a block from the memory pool. -/
  buf : List (Option Nat)
  deriving DecidableEq, Repr

inductive PushRes
  | ok (a : JumpArray)
  | oom
  /-- An access outside of the storage. -/
  | bad
  deriving DecidableEq, Repr

/-- Whether the allocation in this call succeeds, and whether the list of all jumps can be extended. -/
structure PushEnv where
  mem : Bool
  vec : Bool

/-- 1699-1704 `init_jump_array` -/
def JumpArray.init : JumpArray := ⟨0, 4, List.replicate 4 none⟩

/-- 1740-1743: write the new entry's number, if `add_jump_instr_at_offset` (1014-1032) succeeds; its result is ignored. -/
def JumpArray.append (a : JumpArray) (env : PushEnv) (e : Nat) : PushRes :=
  if env.vec then
    if a.num < a.buf.length then .ok ⟨(a.num + 1) % 65536, a.cap, a.buf.set a.num (some e)⟩ else .bad
  else .ok { a with num := (a.num + 1) % 65536 }

/-- 1722-1746 `push_jump_array` -/
def JumpArray.push (a : JumpArray) (env : PushEnv) (e : Nat) : PushRes :=
  if a.num ≥ a.cap then
    let newCap := a.cap * 2 % 65536
    if env.mem then
      -- memcpy of num entries
      if a.num ≤ newCap ∧ a.num ≤ a.buf.length then
        JumpArray.append ⟨a.num, newCap, a.buf.take a.num ++ List.replicate (newCap - a.num) none⟩ env e
      else .bad
    else .oom
  else a.append env e

/-- A sequence of calls; it ends with the first failure. -/
def JumpArray.pushes (a : JumpArray) : List (PushEnv × Nat) → PushRes
  | [] => .ok a
  | (env, e) :: es =>
    match a.push env e with
    | .ok a => a.pushes es
    | r => r

/-- 1711-1720: the entries which `update_jump_array` sets a target for. -/
def JumpArray.entries (a : JumpArray) : List (Option Nat) := a.buf.take a.num

end Verif.Ctl
