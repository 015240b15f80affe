import Verif.Compiler.Imm

/-!
Model of jumps with variable-length offsets and of the address-to-line table, core/kos_compiler.c:700-735, 1005-1254 and
core/kos_entity.c:365-400.

Offsets are `Nat` (they are non-negative `int` values below 2^31 in the code).  `none` is a failed assertion, an access outside of a buffer,
or a loop which has not ended within the fuel.  Growing a buffer always succeeds.
-/
namespace Verif.Compiler

/-- core/kos_compiler.c:1006-1012 `JUMP_ENTRY` -/
structure Entry where
  instr : Nat
  target : Nat
  orig : Nat
  base : Nat
  imm : Nat
  deriving DecidableEq, Repr

/-- core/kos_compiler.c:1193-1206: size of a jump instruction without its offset. Opcodes are in inc/kos_opcodes.h. -/
def baseSize (opcode : Nat) : Nat := if opcode = 0xB5 then 1 else if opcode = 0xB8 then 3 else 2

/-- core/kos_compiler.c:1087: where the offset is in a jump instruction. -/
def immPos (opcode : Nat) : Nat := if opcode = 0xC6 then 2 else if opcode = 0xB8 then 3 else 1

/-- core/kos_compiler.c:1075-1079 -/
def isJump (opcode : Nat) : Bool := opcode = 0xC6 ∨ opcode = 0xB8 ∨ opcode = 0xB5 ∨ opcode = 0xB6 ∨ opcode = 0xB7

/-- core/kos_compiler.c:1014-1046 `add_jump_instr_at_offset` and `set_jump_target`. -/
def newEntry (offs target : Nat) : Entry := ⟨offs, target, offs, 0, 1⟩

/-- Loop of `update_imm_size`, core/kos_compiler.c:1120-1131; `prev` is `new_imm_size` at its start. -/
def immSizeLoop (e : Entry) : Nat → Nat → Option Nat
  | 0, _ => none
  | fuel + 1, prev =>
    let target := if e.target > e.instr then e.target + (prev - e.imm) else e.target
    let jumpOffs : Int := (target : Int) - (e.instr + e.base + prev : Nat)
    let new := simmSize (BitVec.ofInt 32 jumpOffs)
    if new < prev then none
    else if new > prev then immSizeLoop e fuel new
    else some new

/-- core/kos_compiler.c:1113-1138 `update_imm_size`: the new size. -/
def updateImmSize (e : Entry) : Option Nat := immSizeLoop e 6 e.imm

/-- Loops of `update_jump_offsets`, core/kos_compiler.c:1148-1160, for entry number `i`. -/
def moveEntry (c offs delta i : Nat) (e : Entry) : Entry :=
  { e with
    instr := if i ≤ c then e.instr else e.instr + delta
    target := if e.target > offs then e.target + delta else e.target }

/-- core/kos_compiler.c:1140-1164 `update_jump_offsets` for entry number `c`. -/
def updateJumpOffsets (es : List Entry) (c : Nat) : Option (List Entry × Nat) :=
  match es[c]? with
  | none => none
  | some e =>
    match updateImmSize e with
    | none => none
    | some size =>
      let delta := size - e.imm
      let es := es.set c { e with imm := size }
      some (if delta = 0 then es else es.mapIdx (moveEntry c e.instr delta), delta)

/-- One pass from entry `c` on, core/kos_compiler.c:1188-1219; in the first pass (`first`) it also finds the sizes of the instructions. -/
def pass (code : List Nat) (first : Bool) : Nat → Nat → List Entry → Nat → Option (List Entry × Nat)
  | 0, _, es, total => some (es, total)
  | n + 1, c, es, total =>
    match es[c]? with
    | none => none
    | some e =>
      match (if first then (code[e.orig]?).map baseSize else some e.base) with
      | none => none
      | some base =>
        match updateJumpOffsets (es.set c { e with base := base }) c with
        | none => none
        | some (es, delta) => pass code first n (c + 1) es (total + delta)

/-- core/kos_compiler.c:1212-1218: passes until no size changes. -/
def passes (code : List Nat) : Nat → List Entry → Nat → Option (List Entry)
  | _, es, 0 => some es
  | 0, _, _ + 1 => none
  | fuel + 1, es, _ + 1 =>
    match pass code false es.length 0 es 0 with
    | none => none
    | some (es, total) => passes code fuel es total

/-- core/kos_compiler.c:1059-1111 `write_jump_offs` -/
def writeJumpOffs (code : List Nat) (e : Entry) : Option (List Nat) :=
  match code[e.instr]? with
  | none => none
  | some opcode =>
    if ¬ isJump opcode then none
    else
      let jumpOffs : Int := (e.target : Int) - (e.instr + e.base + e.imm : Nat)
      let packed := writeSimm (BitVec.ofInt 32 jumpOffs)
      if packed.length ≠ e.imm then none
      else
        let p := e.instr + immPos opcode
        if p < code.length then some (code.take p ++ packed ++ code.drop (p + 1)) else none

/-- One entry of the address-to-line table. -/
structure LineAddr where
  offs : Nat
  line : Nat
  deriving DecidableEq, Repr

/-- core/kos_compiler.c:1238-1239: entries of the table up to an offset are moved by `added`. -/
def moveLines (orig added : Nat) : List LineAddr → List LineAddr × List LineAddr
  | [] => ([], [])
  | a :: l =>
    if a.offs ≤ orig then
      let r := moveLines orig added l
      (⟨a.offs + added, a.line⟩ :: r.1, r.2)
    else ([], a :: l)

/-- Final pass, core/kos_compiler.c:1224-1248; `lines` are the entries of the table not moved yet. -/
def writeJumps : List Entry → List Nat → List LineAddr → Nat → Option (List Nat × List LineAddr)
  | [], code, lines, added => some (code, lines.map fun a => ⟨a.offs + added, a.line⟩)
  | e :: es, code, lines, added =>
    match writeJumpOffs code e with
    | none => none
    | some code =>
      let m := moveLines e.orig added lines
      match writeJumps es code m.2 (added + (e.imm - 1)) with
      | none => none
      | some (code, lines) => some (code, m.1 ++ lines)

/-- core/kos_compiler.c:1166-1254 `update_jumps` -/
def updateJumps (fuel : Nat) (code : List Nat) (es : List Entry) (lines : List LineAddr) : Option (List Nat × List LineAddr) :=
  match pass code true es.length 0 es 0 with
  | none => none
  | some (es, total) =>
    match passes code fuel es total with
    | none => none
    | some es => writeJumps es code lines 0

/-- What the virtual machine makes of the jump at `pc`: the instruction which follows it, and the one it goes to when the jump is taken.
core/kos_vm.c:2971-3011 (JUMP, JUMP_COND, JUMP_NOT_COND), 3578-3592 (CATCH), 3263-3266 (NEXT_JUMP). -/
def decodeJump (code : List Nat) (pc : Nat) : Option (Nat × Int) :=
  match code[pc]? with
  | none => none
  | some opcode =>
    if ¬ isJump opcode then none
    else
      match loadSimm true (code.drop (pc + immPos opcode)) with
      | .ok v n => some (pc + baseSize opcode + n, pc + baseSize opcode + n + v.toInt)
      | _ => none

/-- core/kos_compiler.c:700-735 `add_addr2line` at offset `offs`; the table of the function so far. -/
def addLine (lines : List LineAddr) (offs line : Nat) (force : Bool) : List LineAddr :=
  match lines.getLast? with
  | none => [⟨offs, line⟩]
  | some last =>
    if force then lines ++ [⟨offs, line⟩]
    else if last.offs = offs then (if line > last.line then lines.dropLast ++ [⟨offs, line⟩] else lines)
    else lines ++ [⟨offs, line⟩]

/-- core/kos_compiler.c:1435-1447 (`append_frame`): the last entry is removed if it points behind the code. -/
def trimLines (size : Nat) (lines : List LineAddr) : List LineAddr :=
  match lines.getLast? with
  | none => lines
  | some last => if last.offs = size then lines.dropLast else lines

/-- Generation of code, as far as the address-to-line table is concerned. -/
inductive GenEv
  | line (line : Nat)        -- `add_addr2line(…, KOS_FALSE_VALUE)`
  | emit (size : Nat)        -- `gen_instr`
  | enter (line : Nat)       -- core/kos_compiler.c:5873-5877 (`gen_function`)
  | leave                    -- `append_frame`
  deriving Repr

/-- `program->cur_offs`, `addr2line_gen_buf`, the start of code and of the table of each function being compiled (innermost first), and the sizes
and tables of finished functions. -/
structure Gen where
  cur : Nat
  buf : List LineAddr
  frames : List (Nat × Nat)
  done : List (Nat × List LineAddr)
  deriving Repr

/-- State before the code of the module, core/kos_compiler.c:1569. -/
def Gen.init : Gen := ⟨0, [], [(0, 0)], []⟩

/-- One step; jumps are left out here. -/
def Gen.step (g : Gen) : GenEv → Option Gen
  | .line l => some { g with buf := addLine g.buf g.cur l false }
  | .emit n => some { g with cur := g.cur + n }
  | .enter l => some { g with frames := (g.cur, g.buf.length) :: g.frames, buf := addLine g.buf g.cur l true }
  | .leave =>
    match g.frames with
    | [] => none
    | (start, first) :: frames =>
      let buf := trimLines g.cur g.buf
      let table := (buf.drop first).map fun a => ⟨a.offs - start, a.line⟩
      some ⟨start, buf.take first, frames, g.done ++ [(g.cur - start, table)]⟩

def Gen.run (g : Gen) : List GenEv → Option Gen
  | [] => some g
  | e :: es =>
    match g.step e with
    | none => none
    | some g => g.run es

/-- core/kos_entity.c:382-397 (`KOS_function_addr_to_line`): `i` is the position of `ptr`. -/
def lineScan (lines : List LineAddr) (offs : Nat) : Nat → Nat → Nat
  | 0, i => i
  | fuel + 1, i =>
    match lines[i]? with
    | none => i
    | some a => if offs > a.offs then lineScan lines offs fuel (i + 1) else i

/-- core/kos_entity.c:365-400 `KOS_function_addr_to_line`; `none` is a pointer in front of the table or a failed assertion. -/
def addrToLine (lines : List LineAddr) (offs : Nat) : Option Nat :=
  if lines.length > 0 then
    let i := lineScan lines offs (lines.length + 1) 0
    let back : Bool := match lines[i]? with
      | none => true
      | some a => decide (offs < a.offs)
    if back ∧ i = 0 then none
    else
      match lines[if back then i - 1 else i]? with
      | none => some 0
      | some a => if offs ≥ a.offs then some a.line else none
  else some 0

end Verif.Compiler
