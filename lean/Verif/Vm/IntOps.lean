/-
Integer operators of the Kos virtual machine (core/kos_vm.c) and of the
constant folder (core/kos_compiler_optim.c), on `int64_t` operands.

`int64_t` is `BitVec 64`; its numeric value is `BitVec.toInt`.
-/
namespace Verif.Vm

/-- A 64-bit signed integer (C `int64_t`). -/
abbrev I64 := BitVec 64

/-- Exceptions which integer operators can raise
(core/kos_vm.c:33-44: str_err_div_by_zero, str_err_div_overflow). -/
inductive Exc
  | divByZero
  | divOverflow
  deriving DecidableEq, Repr

/-- Outcome of one C-level evaluation. `ub` marks C undefined behaviour. -/
inductive Res
  | val (v : I64)
  | raise (e : Exc)
  | ub
  deriving DecidableEq, Repr

/-- `INT64_MIN`, written in the code as `(int64_t)((uint64_t)1 << 63)` (core/kos_vm.c:233). -/
def intMin : I64 := BitVec.ofNat 64 (2 ^ 63)

/-! ### C primitive operators, with their undefined behaviour explicit -/

/-- C `a / b` on int64_t: truncates; undefined for `b = 0` and for the overflowing quotient. -/
def cDiv (a b : I64) : Res :=
  if b = 0 then .ub else if a = intMin ∧ b = -1 then .ub else .val (a.sdiv b)

/-- C `a % b` on int64_t: sign of the dividend; undefined where `a / b` is. -/
def cMod (a b : I64) : Res :=
  if b = 0 then .ub else if a = intMin ∧ b = -1 then .ub else .val (a.srem b)

/-- C `(int64_t)((uint64_t)a << n)`: undefined unless `0 <= n < 64`. -/
def cShl (a n : I64) : Res :=
  if 0 ≤ n.toInt ∧ n.toInt < 64 then .val (a <<< n.toInt.toNat) else .ub

/-- C `a >> n` on int64_t (arithmetic, as all supported compilers do): undefined unless `0 <= n < 64`. -/
def cSar (a n : I64) : Res :=
  if 0 ≤ n.toInt ∧ n.toInt < 64 then .val (a.sshiftRight n.toInt.toNat) else .ub

/-- C `(int64_t)((uint64_t)a >> n)`: undefined unless `0 <= n < 64`. -/
def cShr (a n : I64) : Res :=
  if 0 ≤ n.toInt ∧ n.toInt < 64 then .val (a >>> n.toInt.toNat) else .ub

/-- C signed addition: overflow is undefined. -/
def cAdd (a b : I64) : Res :=
  if -2^63 ≤ a.toInt + b.toInt ∧ a.toInt + b.toInt < 2^63 then .val (a + b) else .ub

/-- C signed subtraction: overflow is undefined. -/
def cSub (a b : I64) : Res :=
  if -2^63 ≤ a.toInt - b.toInt ∧ a.toInt - b.toInt < 2^63 then .val (a - b) else .ub

/-- C signed multiplication: overflow is undefined. -/
def cMul (a b : I64) : Res :=
  if -2^63 ≤ a.toInt * b.toInt ∧ a.toInt * b.toInt < 2^63 then .val (a * b) else .ub

/-- C unary minus on int64_t as used on shift counts, `-b`: undefined for `INT64_MIN`. -/
def cNeg (b : I64) : Res := if b = intMin then .ub else .val (-b)

/-- Sequencing of outcomes. -/
def Res.bind (r : Res) (f : I64 → Res) : Res :=
  match r with
  | .val v => f v
  | .raise e => .raise e
  | .ub => .ub

/-! ### Virtual machine (core/kos_vm.c) -/

/-- core/kos_vm.c:46-75 `add_integer`, integer cases. -/
def vmAdd (a b : I64) : Res := cAdd a b
/-- core/kos_vm.c:102-131 `sub_integer`, integer cases. -/
def vmSub (a b : I64) : Res := cSub a b
/-- core/kos_vm.c:159-188 `mul_integer`, integer cases. -/
def vmMul (a b : I64) : Res := cMul a b

/-- core/kos_vm.c:217-245 `div_integer`, integer case. -/
def vmDiv (a b : I64) : Res :=
  if b = -1 ∧ a = intMin then .raise .divOverflow
  else if b ≠ 0 then cDiv a b
  else .raise .divByZero

/-- core/kos_vm.c:302-331 `mod_integer`, integer case. -/
def vmMod (a b : I64) : Res :=
  if b = -1 ∧ a = intMin then .raise .divOverflow
  else if b ≠ 0 then cMod a b
  else .raise .divByZero

/-- core/kos_vm.c:2509-2538 instruction SHL. -/
def vmShl (a b : I64) : Res :=
  if b.toInt > 63 ∨ b.toInt < -62 then
    .val (if a.toInt < 0 ∧ b.toInt < 0 then -1 else 0)
  else if b.toInt < 0 then (cNeg b).bind (cSar a)
  else cShl a b

/-- core/kos_vm.c:2540-2569 instruction SHR. -/
def vmShr (a b : I64) : Res :=
  if b.toInt > 62 ∨ b.toInt < -63 then
    .val (if a.toInt < 0 ∧ b.toInt > 0 then -1 else 0)
  else if b.toInt < 0 then (cNeg b).bind (cShl a)
  else cSar a b

/-- core/kos_vm.c:2571-2600 instruction SHRU. -/
def vmShru (a b : I64) : Res :=
  if b.toInt > 63 ∨ b.toInt < -63 then .val 0
  else if b.toInt < 0 then (cNeg b).bind (cShl a)
  else cShr a b

/-- core/kos_vm.c:2602-2622 instruction NOT. -/
def vmNot (a : I64) : Res := .val (~~~a)
/-- core/kos_vm.c:2624-2647 instruction AND. -/
def vmAnd (a b : I64) : Res := .val (a &&& b)
/-- core/kos_vm.c:2649-2672 instruction OR. -/
def vmOr (a b : I64) : Res := .val (a ||| b)
/-- core/kos_vm.c:2674-2697 instruction XOR. -/
def vmXor (a b : I64) : Res := .val (a ^^^ b)

/-- Unary minus: core/kos_compiler.c:4293-4335 `pos_neg` loads 0 and emits SUB. -/
def vmNeg (a : I64) : Res := vmSub 0 a
/-- Unary plus: core/kos_compiler.c:4330 leaves the register unchanged. -/
def vmPos (a : I64) : Res := .val a

/-- Binary operators handled by the folder (core/kos_lexer.h:85-125 `KOS_OPERATOR_TYPE`). -/
inductive BinOp
  | add | sub | mul | div | mod | and | or | xor | shl | shr | shru
  deriving DecidableEq, Repr

/-- Unary operators handled by the folder. -/
inductive UnOp
  | add | sub | not
  deriving DecidableEq, Repr

/-- What the program computes at run time for `a op b`. -/
def vmBin : BinOp → I64 → I64 → Res
  | .add => vmAdd | .sub => vmSub | .mul => vmMul | .div => vmDiv | .mod => vmMod
  | .and => vmAnd | .or => vmOr | .xor => vmXor
  | .shl => vmShl | .shr => vmShr | .shru => vmShru

/-- What the program computes at run time for `op a`. -/
def vmUn : UnOp → I64 → Res
  | .add => vmPos | .sub => vmNeg | .not => vmNot

/-! ### Constant folder (core/kos_compiler_optim.c) -/

/-- Outcome of folding: a literal, a compile error, or undefined behaviour in the compiler. -/
inductive Fold
  | lit (v : I64)
  | compileError (e : Exc)
  | ub
  deriving DecidableEq, Repr

/-- A C evaluation inside the compiler cannot raise a Kos exception. -/
def Fold.ofRes : Res → Fold
  | .val v => .lit v
  | .raise e => .compileError e
  | .ub => .ub

/-- core/kos_compiler_optim.c:1255-1430 `optimize_binary_op`, both operands integer. -/
def foldBin (op : BinOp) (a b : I64) : Fold :=
  match op with
  | .add => Fold.ofRes (cAdd a b)
  | .sub => Fold.ofRes (cSub a b)
  | .mul => Fold.ofRes (cMul a b)
  | .div =>
    if b = 0 then .compileError .divByZero
    else if b = -1 ∧ a = intMin then .compileError .divOverflow
    else Fold.ofRes (cDiv a b)
  | .mod =>
    if b = 0 then .compileError .divByZero
    else if b = -1 ∧ a = intMin then .compileError .divOverflow
    else Fold.ofRes (cMod a b)
  | .and => .lit (a &&& b)
  | .or => .lit (a ||| b)
  | .xor => .lit (a ^^^ b)
  | .shl =>
    if b.toInt > 63 ∨ b.toInt < -62 then .lit (if a.toInt < 0 ∧ b.toInt < 0 then -1 else 0)
    else if b.toInt < 0 then Fold.ofRes ((cNeg b).bind (cSar a))
    else Fold.ofRes (cShl a b)
  | .shr =>
    if b.toInt > 62 ∨ b.toInt < -63 then .lit (if a.toInt < 0 ∧ b.toInt > 0 then -1 else 0)
    else if b.toInt < 0 then Fold.ofRes ((cNeg b).bind (cShl a))
    else Fold.ofRes (cSar a b)
  | .shru =>
    if b.toInt > 63 ∨ b.toInt < -63 then .lit 0
    else if b.toInt < 0 then Fold.ofRes ((cNeg b).bind (cShl a))
    else Fold.ofRes (cShr a b)

/-- core/kos_compiler_optim.c:1436-1489 `optimize_unary_op`, integer operand. -/
def foldUn (op : UnOp) (a : I64) : Fold :=
  match op with
  | .add => .lit a
  | .sub => Fold.ofRes (cNeg a)
  | .not => .lit (~~~a)

end Verif.Vm
