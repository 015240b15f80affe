/-
Variable-length immediates: writers in core/kos_compiler.c:743-772, readers in core/kos_misc.c:730-764.
Bytes and `uint32_t` values of the unsigned coder are `Nat`; the signed one works on `BitVec 32`.
-/
namespace Verif.Compiler

/-- core/kos_compiler.c:743-750 `write_uimm`: the bytes appended to the code buffer. -/
def writeUimm (value : Nat) : List Nat :=
  let byte := value % 256                 -- (uint8_t)value
  let value' := value / 128               -- value >>= 7
  if value' = 0 then [byte ||| 0]
  else (byte ||| 0x80) :: writeUimm value'
termination_by value
decreasing_by omega

/-- core/kos_compiler.c:752-755 `encode_signed`.  Left shift of a negative `int32_t` is taken as the two's
complement shift that the supported compilers implement; `>>` is arithmetic. -/
def encodeSigned (v : BitVec 32) : BitVec 32 := (v <<< 1) ^^^ (v.sshiftRight 31)

/-- core/kos_compiler.c:758-767 `get_simm_size`. -/
def simmSize (v : BitVec 32) : Nat :=
  let u := (encodeSigned v).toNat
  if u ≤ 0x7F then 1 else if u ≤ 0x3FFF then 2 else if u ≤ 0x1FFFFF then 3 else if u ≤ 0x0FFFFFFF then 4 else 5

/-- core/kos_compiler.c:769-772 `write_simm`. -/
def writeSimm (v : BitVec 32) : List Nat := writeUimm (encodeSigned v).toNat

/-- Outcome of a reader: value and size, a failed `assert`, an undefined shift, or a read past the buffer. -/
inductive Load (α : Type)
  | ok (value : α) (size : Nat)
  | assertFailed
  | ub
  | oob
  deriving DecidableEq, Repr

/-- core/kos_misc.c:730-751 `kos_load_uimm`; `dbg` tells whether asserts are compiled in.
`size` counts the bytes consumed so far. -/
def loadUimmLoop (dbg : Bool) (uv bits size : Nat) : List Nat → Load Nat
  | [] => .oob
  | byte :: rest =>
    if bits ≥ 32 then .ub
    else if dbg ∧ ¬ (uv + (byte &&& 0x7F) * 2 ^ bits ≤ 0xFFFFFFFF) then .assertFailed
    else
      let uv := (uv + (byte &&& 0x7F) * 2 ^ bits) % 2 ^ 32
      if byte > 0x7F then loadUimmLoop dbg uv (bits + 7) (size + 1) rest
      else if dbg ∧ ¬ (size + 1 < 5) then .assertFailed
      else .ok uv (size + 1)

def loadUimm (dbg : Bool) (code : List Nat) : Load Nat := loadUimmLoop dbg 0 0 0 code

/-- core/kos_misc.c:753-764 `kos_load_simm`: `sv >>= 1` is an arithmetic shift of the `int32_t` view. -/
def loadSimm (dbg : Bool) (code : List Nat) : Load (BitVec 32) :=
  match loadUimm dbg code with
  | .ok u n =>
    let w := BitVec.ofNat 32 u
    let s := w.sshiftRight 1
    .ok (if u &&& 1 = 1 then ~~~ s else s) n
  | .assertFailed => .assertFailed
  | .ub => .ub
  | .oob => .oob

end Verif.Compiler
