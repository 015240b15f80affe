import Verif.Buf.Model
import Verif.Utf8.Str

/-
`buffer.prototype.pack` and `unpack`: modules/kos_mod_base.c:2724-3597.

A format string is the list of its characters; a position in it is the rest of the string.  `unsigned` arithmetic is modulo 2^32.  Texts of
exceptions are left out, but the state at the time of an exception is kept.  The argument array does not change.

A floating-point number is the bit pattern of a double; conversions are parameters.  Strings have fewer than 2^32 bytes in UTF-8.
-/
set_option linter.constructorNameAsVariable false

namespace Verif.Base.Pack

open Verif.Buf (B Env makeRoom putBytes)
open Verif.Utf8 (Kind stringToUtf8 stringFromBuffer)

/-- Values to pack, and values unpacked.  `self` is the buffer on which `pack` was called; `buf` is any other buffer; `other` is of
any other type. -/
inductive Val
  | int (n : Int)
  | float (bits : Nat)
  | buf (bytes : List Nat)
  | self
  | str (k : Kind) (codes : List Nat)
  | other
  deriving DecidableEq, Repr

structure Floats where
  /-- `(double)n` -/
  ofInt : Int → Nat
  /-- `KOS_get_integer`, core/kos_utils.c:179-188: `floor`, `none` if out of range. -/
  toInt : Nat → Option Int
  /-- `(float)value`: the bits of the 32-bit number. -/
  to32  : Nat → Nat
  /-- Bits of a 32-bit number to bits of a 64-bit number. -/
  of32  : Nat → Nat

inductive Out (σ : Type)
  | ok (s : σ)
  | raise (s : σ)
  /-- An access outside of a buffer. -/
  | bad
  deriving DecidableEq, Repr

variable {σ : Type}

/-- modules/kos_mod_base.c:2739-2742. -/
def isSpace (c : Nat) : Bool := c == 32

def isDigit (c : Nat) : Bool := decide (48 ≤ c) && decide (c ≤ 57)

/-- The loop in modules/kos_mod_base.c:2767-2773, after character `c` has been read. -/
def skipLoop (c : Nat) : List Nat → List Nat
  | [] => if isSpace c then [] else [c]
  | d :: s => if isSpace c then skipLoop d s else c :: d :: s

/-- modules/kos_mod_base.c:2756-2776 `pack_format_skip_spaces`. -/
def skipSpaces : List Nat → List Nat
  | [] => []
  | c :: s => skipLoop c s

/-- The loop in modules/kos_mod_base.c:2794-2811; `none` is `~0U`. -/
def countLoop (count : Nat) : List Nat → Option Nat × List Nat
  | [] => (some count, [])
  | c :: s =>
    if ¬ isDigit c then (some count, c :: s)
    else if count ≥ 429496729 then (none, c :: s)
    else countLoop (count * 10 + (c - 48)) s

/-- modules/kos_mod_base.c:2778-2815 `pack_format_get_count`, where the first character is a digit. -/
def getCount : List Nat → Option Nat × List Nat
  | [] => (none, [])
  | c :: s => countLoop (c - 48) s

inductive Fmt
  | x | u | i | f | b | s
  deriving DecidableEq, Repr

/-- A call of the handler: format character, size (`none` is `~0U`), count and byte order. -/
structure Call where
  fmt   : Fmt
  size  : Option Nat
  count : Nat
  big   : Bool
  deriving DecidableEq, Repr

/-- The `switch` in modules/kos_mod_base.c:2862-2930, for the character `c` followed by `s`: `none` raises an exception. -/
inductive Act
  | order (big : Bool)
  | item (f : Fmt) (size : Option Nat)
  deriving DecidableEq, Repr

def sized (f : Fmt) (s : List Nat) : Option (Act × List Nat) :=
  match s with
  | [] => if f = .s then some (.item f none, []) else none
  | d :: _ =>
    if isDigit d then
      match getCount s with
      | (none, _) => none
      | (some n, s) => some (.item f (some n), s)
    else if f = .s then some (.item f none, s)
    else none

def act (c : Nat) (s : List Nat) : Option (Act × List Nat) :=
  if c = 60 then some (.order false, s)
  else if c = 62 then some (.order true, s)
  else if c = 120 then some (.item .x (some 1), s)
  else if c = 117 then sized .u s
  else if c = 105 then sized .i s
  else if c = 102 then sized .f s
  else if c = 98 then sized .b s
  else if c = 115 then sized .s s
  else none

/-- modules/kos_mod_base.c:2842-2860: the count and the format character; `none` raises an exception. -/
def countAndChar (c : Nat) (s : List Nat) : Option (Nat × Nat × List Nat) :=
  if isDigit c then
    match getCount (c :: s) with
    | (none, _) => none
    | (some n, s) =>
      match skipSpaces s with
      | [] => none
      | c :: s => some (n, c, s)
  else some (1, c, s)

/-- modules/kos_mod_base.c:2817-2939 `process_pack_format`; `fuel` bounds the number of passes of the loop. -/
def process (h : σ → Call → Out σ) : Nat → Bool → List Nat → σ → Out σ
  | 0, _, _, _ => .bad
  | fuel + 1, big, fmt, st =>
    match skipSpaces fmt with
    | [] => .ok st
    | c :: s =>
      match countAndChar c s with
      | none => .raise st
      | some (count, c, s) =>
        match act c s with
        | none => .raise st
        | some (.order big, s) => process h fuel big s st
        | some (.item f size, s) =>
          match h st ⟨f, size, count, big⟩ with
          | .ok st => process h fuel big s st
          | .raise st => .raise st
          | .bad => .bad

/-! ### pack -/

/-- The buffer, the index in the argument array, and the number of requests for memory so far. -/
structure PSt where
  buf : B
  idx : Nat
  t   : Nat
  deriving DecidableEq, Repr

/-- Write to the storage of a buffer, through a pointer `dst` into it (`none` is the null pointer). -/
def poke (b : B) (dst : Option Nat) (bytes : List Nat) : Option B :=
  if bytes = [] then some b
  else
    match dst, b.data with
    | some p, some d => (putBytes d p bytes).map fun d => { b with data := some d }
    | _, _ => none

/-- `dst + n`. -/
def adv (dst : Option Nat) (n : Nat) : Option Nat := dst.map (· + n)

/-- modules/kos_mod_base.c:3033-3037 and 3105-3109: `size` bytes of a number, from the least significant one; byte `i` is the next one. -/
def putInt (big : Bool) (size : Nat) (dst : Option Nat) : Nat → Nat → Int → B → Option B
  | 0, _, _, b => some b
  | n + 1, i, value, b =>
    let offs := if big then size - 1 - i else i
    match poke b (adv dst offs) [(value % 256).toNat] with
    | none => none
    | some b => putInt big size dst n (i + 1) (value / 256) b

/-- The integer of a numeric argument, modules/kos_mod_base.c:3022-3031. -/
def intArg (fl : Floats) : Val → Option Int
  | .int k => some k
  | .float x => fl.toInt x
  | _ => none

/-- The bits of the floating-point number of a numeric argument, modules/kos_mod_base.c:3079-3098. -/
def floatArg (fl : Floats) : Val → Option Nat
  | .int k => some (fl.ofInt k)
  | .float x => some x
  | _ => none

/-- The bytes which `KOS_string_to_cstr_vec` gives, without the last one; `none` raises an exception. -/
def strBytes (k : Kind) (codes : List Nat) : Option (List Nat) := if codes = [] then some [] else (stringToUtf8 k codes).map (·.1)

/-- How many bytes are copied from the buffer itself, modules/kos_mod_base.c:3145-3153, if `copy` is the number of bytes wanted.  The
source is at offset 0. -/
def selfCopy (dst : Option Nat) (copy : Nat) : Nat :=
  match dst with
  | some d => if copy ≠ 0 ∧ copy > d ∧ 0 < d then d else copy
  | none => copy

/-- The first `n` bytes of a buffer's storage. -/
def firstBytes (b : B) (n : Nat) : Option (List Nat) :=
  if n = 0 then some []
  else
    match b.data with
    | none => none
    | some d => Buf.getBytes d 0 n

/-- One value of an item: given the state after the index has been increased. -/
def packOne (fl : Floats) (env : Nat → Env) (f : Fmt) (size : Option Nat) (big : Bool) (st : PSt) (dst : Option Nat) (v : Val) : Out PSt :=
  match f, size with
  | .x, _ => .ok st
  | .u, some n | .i, some n => -- 3016-3038
    match intArg fl v with
    | none => .raise st
    | some k =>
      match putInt big n dst n 0 k st.buf with
      | none => .bad
      | some b => .ok { st with buf := b }
  | .f, some n => -- 3071-3112
    match floatArg fl v with
    | none => .raise st
    | some x =>
      match putInt big n dst n 0 (if n = 4 then fl.to32 x else x) st.buf with
      | none => .bad
      | some b => .ok { st with buf := b }
  | .b, some n => -- 3128-3163
    match v with
    | .buf src =>
      let copy := if n > src.length then src.length else n
      match poke st.buf dst (src.take copy ++ List.replicate (n - copy) 0) with
      | none => .bad
      | some b => .ok { st with buf := b }
    | .self =>
      let copy := selfCopy dst (if n > st.buf.size then st.buf.size else n)
      match firstBytes st.buf copy with
      | none => .bad
      | some src =>
        match poke st.buf dst (src ++ List.replicate (n - copy) 0) with
        | none => .bad
        | some b => .ok { st with buf := b }
    | _ => .raise st
  | .s, _ => -- 3180-3214
    match v with
    | .str k codes =>
      match strBytes k codes with
      | none => .raise st
      | some bytes =>
        if ¬ (env st.t).mem (bytes.length + 1) then .raise { st with t := st.t + 1 }
        else
          let st := { st with t := st.t + 1 }
          match size with
          | none =>
            match makeRoom (env st.t) st.buf bytes.length with
            | .ok off b =>
              match poke b (some off) bytes with
              | none => .bad
              | some b => .ok { st with buf := b, t := st.t + 1 }
            | .raise _ b => .raise { st with buf := b, t := st.t + 1 }
            | .bad => .bad
          | some n =>
            let copy := if n > bytes.length then bytes.length else n
            match poke st.buf dst (bytes.take copy ++ List.replicate (n - copy) 0) with
            | none => .bad
            | some b => .ok { st with buf := b }
    | _ => .raise st
  | _, none => .bad

/-- The loops over `count` values. -/
def packLoop (fl : Floats) (env : Nat → Env) (data : List Val) (f : Fmt) (size : Option Nat) (big : Bool) :
    Nat → Option Nat → PSt → Out PSt
  | 0, _, st => .ok st
  | count + 1, dst, st =>
    match data[st.idx]? with
    | none => .raise st
    | some v =>
      match packOne fl env f size big { st with idx := st.idx + 1 } dst v with
      | .ok st => packLoop fl env data f size big count (adv dst (size.getD 0)) st
      | o => o

/-- The part of `pack_format` after room has been made, modules/kos_mod_base.c:2983-3217. -/
def packValues (fl : Floats) (env : Nat → Env) (data : List Val) (st : PSt) (dst : Option Nat) (c : Call) : Out PSt :=
  match c.fmt with
  | .x =>
    match dst with
    | some _ =>
      match poke st.buf dst (List.replicate c.count 0) with
      | none => .bad
      | some b => .ok { st with buf := b }
    | none => .ok st
  | f =>
    if (f = .u ∨ f = .i) ∧ c.size ≠ some 1 ∧ c.size ≠ some 2 ∧ c.size ≠ some 4 ∧ c.size ≠ some 8 then .raise st
    else if f = .f ∧ c.size ≠ some 4 ∧ c.size ≠ some 8 then .raise st
    else if (st.idx + c.count) % 4294967296 > data.length then .raise st
    else packLoop fl env data f c.size c.big c.count dst st

/-- modules/kos_mod_base.c:2941-3223 `pack_format`.  Which array has the values was decided before. -/
def packItem (fl : Floats) (env : Nat → Env) (data : List Val) (st : PSt) (c : Call) : Out PSt :=
  match c.size with
  | some n =>
    if n ≠ 0 ∧ c.count ≠ 0 then
      match makeRoom (env st.t) st.buf (n * c.count % 4294967296) with
      | .ok off b => packValues fl env data { st with buf := b, t := st.t + 1 } (some off) c
      | .raise _ b => .raise { st with buf := b, t := st.t + 1 }
      | .bad => .bad
    else packValues fl env data st none c
  | none => packValues fl env data st none c

/-- Arguments of `pack` after the format: the values, or an array of values followed by arguments which are ignored. -/
inductive Args
  | values (vs : List Val)
  | array (vs : List Val)
  deriving DecidableEq, Repr

/-- modules/kos_mod_base.c:2955-2971: the array with values and the first index.  The argument array starts with the format string. -/
def start : Args → List Val × Nat
  | .values vs => (.other :: vs, 1)
  | .array vs => (vs, 0)

/-- modules/kos_mod_base.c:3475-3503 `pack`. -/
def pack (fl : Floats) (env : Nat → Env) (b : B) (fmt : List Nat) (args : Args) : Out PSt :=
  process (packItem fl env (start args).1) (fmt.length + 1) false fmt ⟨b, (start args).2, 0⟩

/-! ### unpack -/

/-- The position in the buffer (as `unsigned`), the values so far, and the number of requests for memory. -/
structure USt where
  idx : Nat
  out : List Val
  t   : Nat
  deriving DecidableEq, Repr

/-- Oracles of `unpack`: memory, and the alignment of the buffer (for scanning UTF-8). -/
structure UEnv where
  mem     : Nat → Bool
  word    : Nat
  aligned : Nat → Bool

/-- A byte of the buffer. -/
def byteAt (b : B) (i : Nat) : Option Nat :=
  match b.data with
  | none => none
  | some d => if i < b.size then d[i]? else none

/-- `n` bytes of the buffer. -/
def bytesAt (b : B) (i n : Nat) : Option (List Nat) :=
  match b.data with
  | none => none
  | some d => if i + n ≤ b.size then Buf.getBytes d i n else none

/-- modules/kos_mod_base.c:3284-3287: byte `i` is the next one. -/
def getInt (b : B) (big : Bool) (size offs : Nat) : Nat → Nat → Nat → Option Nat
  | 0, _, value => some value
  | n + 1, i, value =>
    let rel := if big then i else size - 1 - i
    match byteAt b ((offs + rel) % 4294967296) with
    | none => none
    | some x => getInt b big size offs n (i + 1) (value * 256 % 18446744073709551616 + x)

/-- `(int64_t)value` -/
def toI64 (value : Nat) : Int := if value < 9223372036854775808 then value else (value : Int) - 18446744073709551616

/-- modules/kos_mod_base.c:3289-3318: the value from its bits. -/
def valueOf (fl : Floats) (f : Fmt) (size value : Nat) : Val :=
  if f = .i ∧ size < 8 then
    let shift := 64 - 8 * size
    .int (toI64 (value * 2 ^ shift % 18446744073709551616) / 2 ^ shift)
  else if f = .f then
    .float (if size = 4 then fl.of32 (value % 4294967296) else value)
  else .int (toI64 value)

/-- One value of an item at offset `offs`. -/
def unpackOne (fl : Floats) (ue : UEnv) (b : B) (f : Fmt) (size : Nat) (big : Bool) (offs : Nat) : Out Val :=
  match f with
  | .x => .bad
  | .u | .i | .f =>
    match getInt b big size offs size 0 0 with
    | none => .bad
    | some value => .ok (valueOf fl f size value)
  | .b => -- 3331-3343
    if size ≠ 0 then
      -- the offset is an `int`
      if offs ≥ 2147483648 then .bad
      else
        match bytesAt b offs size with
        | none => .bad
        | some bytes => .ok (.buf bytes)
    else .ok (.buf [])
  | .s => -- 3353-3358 and core/kos_string.c:313-389
    if size ≠ 0 then
      let fin := (offs + size) % 4294967296
      if b.size = 0 ∧ offs = fin then .ok (.str .ascii [])
      else if offs > fin ∨ fin > b.size then .raise .other
      -- reads `buf` instead of `ptr`
      else if b.ext then .bad
      else
        match bytesAt b offs (fin - offs) with
        | none => .bad
        | some bytes =>
          match stringFromBuffer ue.word ue.aligned bytes with
          | .ok (k, codes) => .ok (.str k codes)
          | .err => .raise .other
          | .ub => .bad
    else .ok (.str .ascii [])

/-- The loops over `count` values. -/
def unpackLoop (fl : Floats) (ue : UEnv) (b : B) (f : Fmt) (size : Nat) (big : Bool) : Nat → USt → Out USt
  | 0, st => .ok st
  | count + 1, st =>
    match unpackOne fl ue b f size big st.idx with
    | .bad => .bad
    | .raise _ => .raise st
    | .ok v =>
      -- creating the value and `KOS_array_push`
      if ue.mem st.t then unpackLoop fl ue b f size big count ⟨(st.idx + size) % 4294967296, st.out ++ [v], st.t + 1⟩
      else .raise { st with t := st.t + 1 }

/-- The part of `unpack_format` after the size is known, modules/kos_mod_base.c:3252-3371. -/
def unpackSized (fl : Floats) (ue : UEnv) (b : B) (st : USt) (c : Call) (size : Nat) : Out USt :=
  if (st.idx + size * c.count % 4294967296) % 4294967296 > b.size then .raise st
  else if c.count = 0 then .ok st
  else
    match c.fmt with
    | .x => .ok { st with idx := (st.idx + size * c.count % 4294967296) % 4294967296 }
    | f =>
      if (f = .f ∧ size ≠ 4 ∧ size ≠ 8) ∨ ((f = .f ∨ f = .i ∨ f = .u) ∧ size ≠ 1 ∧ size ≠ 2 ∧ size ≠ 4 ∧ size ≠ 8) then .raise st
      else unpackLoop fl ue b f size c.big c.count st

/-- modules/kos_mod_base.c:3225-3375 `unpack_format`. -/
def unpackItem (fl : Floats) (ue : UEnv) (b : B) (st : USt) (c : Call) : Out USt :=
  match c.size with
  | none => if c.count ≠ 1 then .raise st else unpackSized fl ue b st c ((b.size + 4294967296 - st.idx) % 4294967296)
  | some n => unpackSized fl ue b st c n

/-- core/kos_utils.c:215-259 `KOS_get_index_arg` with `begin_pos` 0 and `end_pos` `(int)size`; the result as `unsigned`.
`none`: the argument is `void`. -/
def startPos (b : B) (pos : Option Int) : Nat :=
  let fin : Int := if b.size < 2147483648 then b.size else (b.size : Int) - 4294967296
  match pos with
  | none => 0
  | some p =>
    let p := if p < 0 then p + fin else p
    let p := if p < 0 then 0 else if p > fin then fin else p
    (p % 4294967296).toNat

/-- modules/kos_mod_base.c:3556-3597 `unpack`. -/
def unpack (fl : Floats) (ue : UEnv) (b : B) (fmt : List Nat) (pos : Option Int) : Out USt :=
  process (unpackItem fl ue b) (fmt.length + 1) false fmt ⟨startPos b pos, [], 0⟩

end Verif.Base.Pack
