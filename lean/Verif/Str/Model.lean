/-
Strings: core/kos_string.c.  A string is its header plus the bytes from its data pointer to the end of the block it points
into; characters are little-endian units of 1, 2 or 4 bytes.

Object type checks are left out.  The address of the characters is kept because `compare_slice` depends on it.
Addresses and contents of fresh memory and success of allocation come from an oracle `Env`.  `bad` is an access outside of
the block, or a failed assertion.  The build options CONFIG_STRING16 and CONFIG_STRING32 are off.  Moving of objects by the
garbage collector is not modelled.
-/
namespace Verif.Str

/-- `KOS_STRING_ELEM_8/16/32`, inc/kos_entity.h:202-204. -/
inductive Width
  | w8 | w16 | w32
  deriving DecidableEq, Repr

/-- Bytes per character, `1 << elem_size`. -/
def Width.bytes : Width → Nat
  | .w8 => 1
  | .w16 => 2
  | .w32 => 4

/-- The numeric value of `elem_size`. -/
def Width.code : Width → Nat
  | .w8 => 0
  | .w16 => 1
  | .w32 => 2

/-- `KOS_STRING_LOCAL/PTR/REF`, inc/kos_entity.h:211-213. -/
inductive Stor
  | inObj | ptr | ref
  deriving DecidableEq, Repr

/-- `KOS_STRING`: flags (width, ASCII bit, storage), `length`, cached `hash` (0: none), address of the characters, and the
bytes at that address. -/
structure S where
  width : Width
  ascii : Bool
  stor  : Stor
  len   : Nat
  hash  : Nat
  addr  : Nat
  mem   : List Nat
  deriving DecidableEq, Repr

inductive Err
  | badIndex | tooLong | tooManyRepeats | outOfMemory | tooLarge | badCode
  deriving DecidableEq, Repr

inductive Out (α : Type)
  | ok (a : α)
  | raise (e : Err)
  | bad
  deriving DecidableEq, Repr

/-- Oracles of one allocation: whether it succeeds, the address (in units of 8 bytes) and what the memory contains. -/
structure Env where
  mem  : Bool
  base : Nat
  junk : Nat → Nat

/-- Little-endian number. -/
def leVal : List Nat → Nat
  | [] => 0
  | b :: l => b + 256 * leVal l

/-- The unit of `n` bytes at byte offset `i`; `none` outside of the block. -/
def unit (m : List Nat) (n i : Nat) : Option Nat :=
  if i + n ≤ m.length then some (leVal ((m.drop i).take n)) else none

/-- The `n` bytes of a number, as stored in a unit of `n` bytes. -/
def leBytes : Nat → Nat → List Nat
  | 0, _ => []
  | n + 1, c => c % 256 :: leBytes n (c / 256)

/-- Store bytes at an offset; `none` outside of the block. -/
def put (m : List Nat) (i : Nat) (bs : List Nat) : Option (List Nat) :=
  if i + bs.length ≤ m.length then some (m.take i ++ bs ++ m.drop (i + bs.length)) else none

/-- The empty string constant `KOS_STR_EMPTY` (core/kos_const_strings.h; `KOS_STRING_ASCII | KOS_STRING_PTR`). -/
def empty : S := ⟨.w8, true, .ptr, 0, 0, 0, []⟩

/-- core/kos_string.c:44-62 `string_size_from_max_code`: width and ASCII bit. -/
def sizeFromMaxCode (c : Nat) : Width × Bool :=
  if c < 0x80 then (.w8, true)
  else if c < 0x100 then (.w8, false)
  else if c < 0x10000 then (.w16, false)
  else (.w32, false)

/-- core/kos_string.c:64-85 `new_empty_string`.  The flags are used as a shift count, so an ASCII string gets 16 bytes per
character. -/
def newEmpty (env : Env) (len : Nat) (w : Width) (ascii : Bool) : Out S :=
  if len > 0xFFFF ∨ len = 0 then .bad
  else if env.mem then
    .ok ⟨w, ascii, .inObj, len, 0, 8 * env.base, (List.range (len <<< (w.code + if ascii then 4 else 0))).map (env.junk · % 256)⟩
  else .raise .outOfMemory

/-- core/kos_string.c:959-1001 `KOS_string_get_char_code`. -/
def getCharCode (s : S) (idx : Int) : Out Nat :=
  let idx := if idx < 0 then idx + s.len else idx
  if idx ≥ 0 ∧ idx < s.len then
    match unit s.mem s.width.bytes (idx.toNat * s.width.bytes) with
    | none => .bad
    | some c => .ok c
  else .raise .badIndex

/-- The copying loops of `KOS_new_string_from_codes`, core/kos_string.c:258-304. -/
def codesLoop (m : List Nat) (size : Nat) : List Int → Nat → Option (List Nat)
  | [], _ => some m
  | c :: l, i =>
    match put m i (leBytes size c.toNat) with
    | none => none
    | some m' => codesLoop m' size l (i + size)

/-- core/kos_string.c:204-311 `KOS_new_string_from_codes` of an array of integers, if no other thread changes the array. -/
def fromCodes (env : Env) (l : List Int) : Out S :=
  if l.length > 0xFFFF then .raise .tooLarge
  else if l.any (fun c => c < 0 || c > 0x1FFFFF) then .raise .badCode
  else if l.length = 0 then .ok empty
  else
    match newEmpty env l.length (sizeFromMaxCode (l.foldl (fun h c => h ||| c.toNat) 0)).1
        (sizeFromMaxCode (l.foldl (fun h c => h ||| c.toNat) 0)).2 with
    | .bad => .bad
    | .raise e => .raise e
    | .ok n =>
      match codesLoop n.mem n.width.bytes l 0 with
      | none => .bad
      | some m => .ok { n with mem := m }

/-- core/kos_string.c:919-957 `KOS_string_get_char`. -/
def getChar (env : Env) (s : S) (idx : Int) : Out S :=
  match getCharCode s idx with
  | .bad => .bad
  | .raise e => .raise e
  | .ok code =>
    let p := sizeFromMaxCode code
    match newEmpty env 1 p.1 p.2 with
    | .bad => .bad
    | .raise e => .raise e
    | .ok n =>
      match put n.mem 0 (leBytes p.1.bytes code) with
      | none => .bad
      | some m => .ok { n with mem := m }

/-- One of the three loops of core/kos_string.c:524-553, with `n` characters left. -/
def hashLoop (m : List Nat) (size : Nat) : Nat → Nat → Nat → Option Nat
  | 0, _, h => some h
  | n + 1, i, h =>
    match unit m size i with
    | none => none
    | some c => hashLoop m size n (i + size) (Nat.xor (h * 33 % 4294967296) c)

/-- core/kos_string.c:504-561 `KOS_string_get_hash`; the result comes with the string whose `hash` has been set.  The
assertion that the hash is not 0 (line 555) is in effect in `debug` builds. -/
def getHash (debug : Bool) (s : S) : Out (Nat × S) :=
  if s.hash ≠ 0 then .ok (s.hash, s)
  else
    match hashLoop s.mem s.width.bytes s.len 0 5381 with
    | none => .bad
    | some h => if debug = true ∧ h = 0 then .bad else .ok (h, { s with hash := h })

/-- The widening loops of `init_empty_string`, core/kos_string.c:583-611. -/
def widen (dst : List Nat) (dsize : Nat) (src : List Nat) (ssize : Nat) : Nat → Nat → Nat → Option (List Nat)
  | 0, _, _ => some dst
  | n + 1, i, j =>
    match unit src ssize j with
    | none => none
    | some c =>
      match put dst i (leBytes dsize c) with
      | none => none
      | some dst' => widen dst' dsize src ssize n (i + dsize) (j + ssize)

/-- core/kos_string.c:563-615 `init_empty_string`. -/
def initEmpty (dest : S) (offs : Nat) (src : S) (len : Nat) : Option S :=
  if len = 0 then some dest
  else if len > src.len then none
  else if dest.width = src.width then
    if len * src.width.bytes ≤ src.mem.length then
      (put dest.mem (offs * dest.width.bytes) (src.mem.take (len * src.width.bytes))).map fun m => { dest with mem := m }
    else none
  else if (dest.width = .w16 ∧ src.width = .w8) ∨ (dest.width = .w32 ∧ (src.width = .w8 ∨ src.width = .w16)) then
    (widen dest.mem dest.width.bytes src.mem src.width.bytes len (offs * dest.width.bytes) 0).map fun m => { dest with mem := m }
  else none

/-- The first loop of `KOS_string_add(_n)`, core/kos_string.c:637-661: the mix of widths, the ASCII bit, the total length
(32 bits), the number of non-empty strings and the last of them. -/
def addScan : List S → Bool × Bool × Bool × Nat × Nat × Option S
  | l => l.foldl (fun (has16, has32, ascii, newLen, non0, last) s =>
      (has16 || s.width == .w16, has32 || s.width == .w32, ascii && s.ascii, (newLen + s.len) % 4294967296,
        if s.len ≠ 0 then non0 + 1 else non0, if s.len ≠ 0 then some s else last))
      (false, false, true, 0, 0, none)

/-- The second loop, core/kos_string.c:686-692. -/
def addCopy (dest : S) : List S → Nat → Option S
  | [], _ => some dest
  | s :: l, pos =>
    match initEmpty dest pos s s.len with
    | none => none
    | some d => addCopy d l (pos + s.len)

/-- `elem_size` of the sum, core/kos_string.c:663-668. -/
def addWidth (has16 has32 ascii : Bool) : Width × Bool :=
  if has32 then (.w32, false) else if has16 then (.w16, false) else (.w8, ascii)

/-- Body of `KOS_string_add_n` for any number of strings but one, core/kos_string.c:620-699. -/
def addMany (env : Env) (l : List S) : Out S :=
  match addScan l with
  | (has16, has32, ascii, newLen, non0, last) =>
    if non0 = 1 ∧ newLen ≠ 0 then
      match last with
      | none => .bad
      | some s => .ok s
    else if newLen ≠ 0 then
      if newLen ≤ 0xFFFF then
        match newEmpty env newLen (addWidth has16 has32 ascii).1 (addWidth has16 has32 ascii).2 with
        | .bad => .bad
        | .raise e => .raise e
        | .ok d =>
          match addCopy d l 0 with
          | none => .bad
          | some d' => .ok d'
      else .raise .tooLong
    else .ok empty

/-- core/kos_string.c:617-703 `KOS_string_add_n`, also 705-813 `KOS_string_add` of an array holding these strings, if no
other thread changes the array. -/
def addN (env : Env) (l : List S) : Out S :=
  match l with
  | [s] => .ok s
  | l => addMany env l

/-- Begin and end of `KOS_string_slice` (core/kos_string.c:832-846) and `KOS_string_compare_slice` (1263-1283). -/
def range (len : Nat) (b e : Int) : Int × Int :=
  let b := if b < 0 then b + len else b
  let e := if e < 0 then e + len else e
  let b := if b < 0 then 0 else b
  let e := if e > len then (len : Int) else e
  (b, if e < b then b else e)

/-- core/kos_string.c:815-920 `KOS_string_slice`. -/
def slice (env : Env) (s : S) (b e : Int) : Out S :=
  if s.len = 0 then .ok empty
  else
    let p := range s.len b e
    let newLen := (p.2 - p.1).toNat
    if newLen > 0xFFFF then .bad
    else if newLen = s.len then .ok s
    else if newLen = 0 then .ok empty
    else
      let off := p.1.toNat * s.width.bytes
      if newLen <<< s.width.code ≤ 16 then
        match newEmpty env newLen s.width s.ascii with
        | .bad => .bad
        | .raise er => .raise er
        | .ok d =>
          if off + newLen * s.width.bytes ≤ s.mem.length then
            match put d.mem 0 ((s.mem.drop off).take (newLen * s.width.bytes)) with
            | none => .bad
            | some m => .ok { d with mem := m }
          else .bad
      else if env.mem then
        -- KOS_new_const_string (PTR) or a reference to the same memory (REF)
        .ok ⟨s.width, s.ascii, if s.stor = .ptr then .ptr else .ref, newLen, 0, s.addr + off, s.mem.drop off⟩
      else .raise .outOfMemory

/-- First loop of `compare_slice`, core/kos_string.c:1135-1138: offset after it, from offset `d`. -/
def cmpLead (pa : Nat) (ma mb : List Nat) (ia ib : Nat) : Nat → Nat → Option Nat
  | 0, _ => none
  | fuel + 1, d =>
    if (pa + d) % 8 ≠ 0 then
      match ma[ia + d]?, mb[ib + d]? with
      | some x, some y => if x = y then cmpLead pa ma mb ia ib fuel (d + 1) else some d
      | _, _ => none
    else some d

/-- The comparison loops, core/kos_string.c:1141-1144 with `n` = 8 and an aligned end, 1148-1187 with the character size. -/
def cmpUnits (n stop : Nat) (ma mb : List Nat) (ia ib : Nat) : Nat → Nat → Option Nat
  | 0, _ => none
  | fuel + 1, d =>
    if d < stop then
      match unit ma n (ia + d), unit mb n (ib + d) with
      | some x, some y => if x = y then cmpUnits n stop ma mb ia ib fuel (d + n) else some d
      | _, _ => none
    else some d

/-- `compare_slice` for strings of the same width, core/kos_string.c:1120-1193.  `coll` is `kos_unicode_compare`. -/
def cmpSame (coll : Nat → Nat → Int) (a : S) (aBegin aLen : Nat) (b : S) (bBegin bLen : Nat) : Option Int :=
  let n := a.width.bytes
  let cmpLen := if aLen < bLen then aLen else bLen
  let ia := aBegin * n
  let ib := bBegin * n
  let pa := a.addr + ia
  let pb := b.addr + ib
  let numB := cmpLen * n
  let pend8 := (pa + numB) / 8 * 8
  let r1 :=
    if pa % 8 = pb % 8 ∧ pa + 8 < pend8 then
      match cmpLead pa a.mem b.mem ia ib 9 0 with
      | none => none
      | some d => if (pa + d) % 8 = 0 then cmpUnits 8 (pend8 - pa) a.mem b.mem ia ib (numB + 1) d else some d
    else some 0
  match r1 with
  | none => none
  | some d =>
    match cmpUnits n numB a.mem b.mem ia ib (numB + 1) d with
    | none => none
    | some d =>
      if d < numB then
        match unit a.mem n (ia + d), unit b.mem n (ib + d) with
        | some ca, some cb => some (coll ca cb)
        | _, _ => none
      else some ((aLen : Int) - bLen)

/-- `strcmp_8_16`, `strcmp_8_32` and `strcmp_16_32`, core/kos_string.c:1003-1100, which differ in the widths only; `n`
characters left at index `i`. -/
def cmpMixed (coll : Nat → Nat → Int) (a : S) (aBegin aLen : Nat) (b : S) (bBegin bLen : Nat) : Nat → Nat → Option Int
  | 0, _ => some ((aLen : Int) - bLen)
  | n + 1, i =>
    match unit a.mem a.width.bytes ((aBegin + i) * a.width.bytes), unit b.mem b.width.bytes ((bBegin + i) * b.width.bytes) with
    | some ca, some cb => if ca ≠ cb then some (coll ca cb) else cmpMixed coll a aBegin aLen b bBegin bLen n (i + 1)
    | _, _ => none

/-- core/kos_string.c:1102-1228 `compare_slice`; `none` is undefined behaviour. -/
def compareSlice (coll : Nat → Nat → Int) (a : S) (aBegin aEnd : Nat) (b : S) (bBegin bEnd : Nat) : Option Int :=
  if aEnd > a.len ∨ aBegin > aEnd ∨ bEnd > b.len ∨ bBegin > bEnd then none
  else
    let aLen := aEnd - aBegin
    let bLen := bEnd - bBegin
    if a.width = b.width then cmpSame coll a aBegin aLen b bBegin bLen
    else if a.width.code < b.width.code then
      cmpMixed coll a aBegin aLen b bBegin bLen (if aLen < bLen then aLen else bLen) 0
    else (cmpMixed coll b bBegin bLen a aBegin aLen (if bLen < aLen then bLen else aLen) 0).map (- ·)

/-- core/kos_string.c:1230-1248 `KOS_string_compare`. -/
def compare (coll : Nat → Nat → Int) (a b : S) : Option Int := compareSlice coll a 0 a.len b 0 b.len

/-- core/kos_string.c:1250-1294 `KOS_string_compare_slice`. -/
def compareSlices (coll : Nat → Nat → Int) (a : S) (ab ae : Int) (b : S) (bb be : Int) : Option Int :=
  let p := range a.len ab ae
  let q := range b.len bb be
  compareSlice coll a p.1.toNat p.2.toNat b q.1.toNat q.2.toNat

/-- modules/kos_mod_base.c:4058-4089 `ends_with` -/
def endsWith (coll : Nat → Nat → Int) (s t : S) : Option Bool :=
  if t.len > s.len then some false
  else (compareSlices coll s ((s.len : Int) - t.len) s.len t 0 t.len).map (· == 0)

/-- modules/kos_mod_base.c:4455-4486 `starts_with` -/
def startsWith (coll : Nat → Nat → Int) (s t : S) : Option Bool :=
  if t.len > s.len then some false
  else (compareSlices coll s 0 t.len t 0 t.len).map (· == 0)

/-- core/kos_string.c:1296-1320 `string_find_brute_force`, from position `pos`; positions are C `int`s. -/
def findLoop (coll : Nat → Nat → Int) (text pat : S) (stop delta : Int) : Nat → Int → Option Int
  | 0, _ => none
  | fuel + 1, pos =>
    if pos ≠ stop then
      -- a negative position would be a huge unsigned number
      if pos < 0 then none
      else
        match compareSlice coll text pos.toNat (pos.toNat + pat.len) pat 0 pat.len with
        | none => none
        | some r => if r = 0 then some pos else findLoop coll text pat stop delta fuel (pos + delta)
    else some (-1)

/-- Membership loop of `KOS_string_scan`, core/kos_string.c:1451-1494, with `n` characters of the set left. -/
def inSet (m : List Nat) (size code : Nat) : Nat → Nat → Option Bool
  | 0, _ => some false
  | n + 1, i =>
    match unit m size i with
    | none => none
    | some c => if c = code then some true else inSet m size code n (i + size)

/-- The bits of `c_mask`, core/kos_string.c:1418-1419: whether a code has bits outside of the width of the set. -/
def masked (w : Width) (code : Nat) : Bool :=
  match w with
  | .w8 => code / 256 % 16777216 != 0
  | .w16 => code / 65536 % 65536 != 0
  | .w32 => false

/-- Main loop of `KOS_string_scan`, core/kos_string.c:1421-1497; `pos` is the index of `location`. -/
def scanLoop (text pat : S) (incl : Bool) (stop delta : Int) : Nat → Int → Option Int
  | 0, _ => none
  | fuel + 1, pos =>
    if pos ≠ stop then
      if pos < 0 then none
      else
        match unit text.mem text.width.bytes (pos.toNat * text.width.bytes) with
        | none => none
        | some code =>
          if text.width ≠ .w8 ∧ masked pat.width code = true then scanLoop text pat incl stop delta fuel (pos + delta)
          else
            match inSet pat.mem pat.width.bytes code pat.len 0 with
            | none => none
            | some m => if m = incl then some pos else scanLoop text pat incl stop delta fuel (pos + delta)
    else some (-1)

/-- `memchr` over `n` bytes from offset `i`; the result is the offset, or -1. -/
def memchr (m : List Nat) (c : Nat) : Nat → Nat → Option Int
  | 0, _ => some (-1)
  | n + 1, i =>
    match m[i]? with
    | none => none
    | some x => if x = c then some i else memchr m c n (i + 1)

/-- core/kos_string.c:1361-1501 `KOS_string_scan`: the new value of `*pos`. -/
def scan (text pat : S) (reverse incl : Bool) (pos : Int) : Option Int :=
  if pat.len = 0 then some pos
  else if pos < 0 ∨ pos ≥ text.len then some (-1)
  else if reverse = false ∧ incl = true ∧ pat.len = 1 ∧ text.width = .w8 ∧ pat.width = .w8 then
    match pat.mem[0]? with
    | none => none
    | some c => memchr text.mem c (text.len - pos.toNat) pos.toNat
  else
    scanLoop text pat incl (if reverse then -1 else text.len) (if reverse then -1 else 1) (text.len + 1) pos

/-- core/kos_string.c:1322-1359 `KOS_string_find`: the new value of `*pos`. -/
def find (coll : Nat → Nat → Int) (text pat : S) (reverse : Bool) (pos : Int) : Option Int :=
  if pat.len = 0 then some pos
  else if pos < 0 ∨ pos + pat.len > text.len then some (-1)
  else if pat.len = 1 then scan text pat reverse true pos
  else
    findLoop coll text pat (if reverse then -1 else (text.len : Int) - pat.len + 1) (if reverse then -1 else 1) (text.len + 1) pos

/-- core/kos_utils.c:215-253 `KOS_get_index_arg` for void (`none`) or an integer. -/
def indexArg (beginPos endPos : Int) (voidIsEnd : Bool) : Option Int → Int
  | none => if voidIsEnd then endPos else beginPos
  | some i =>
    let i := if i < 0 then i + endPos else i
    if i < beginPos then beginPos else if i > endPos then endPos else i

/-- modules/kos_mod_base.c:4172-4204 `find_dir`, behind `string.find` and `string.rfind`. -/
def findDir (coll : Nat → Nat → Int) (text pat : S) (reverse : Bool) (pos : Option Int) : Option Int :=
  let endPos : Int := if reverse then (if (text.len : Int) - pat.len > 0 then (text.len : Int) - pat.len else 0) else text.len
  find coll text pat reverse (indexArg (if reverse then -1 else 0) endPos reverse pos)

/-- modules/kos_mod_base.c:4289-4332 `scan_dir`, behind `string.scan` and `string.rscan`. -/
def scanDir (text pat : S) (reverse incl : Bool) (pos : Option Int) : Option Int :=
  let p := indexArg (if reverse then -1 else 0) text.len reverse pos
  scan text pat reverse incl (if reverse ∧ p = text.len then p - 1 else p)

/-- Loops of `KOS_string_reverse`, core/kos_string.c:1531-1558: character `i` goes to index `len - 1 - i`. -/
def revLoop (dst src : List Nat) (size len : Nat) : Nat → Nat → Option (List Nat)
  | 0, _ => some dst
  | n + 1, i =>
    match unit src size (i * size) with
    | none => none
    | some c =>
      match put dst ((len - 1 - i) * size) (leBytes size c) with
      | none => none
      | some dst' => revLoop dst' src size len n (i + 1)

/-- core/kos_string.c:1503-1564 `KOS_string_reverse`. -/
def reverse (env : Env) (s : S) : Out S :=
  if s.len < 2 then .ok s
  else
    match newEmpty env s.len s.width s.ascii with
    | .bad => .bad
    | .raise e => .raise e
    | .ok d =>
      match revLoop d.mem s.mem s.width.bytes s.len s.len 0 with
      | none => .bad
      | some m => .ok { d with mem := m }

/-- Loop of `KOS_string_repeat`, core/kos_string.c:1611-1614. -/
def repLoop (dst bs : List Nat) : Nat → Nat → Option (List Nat)
  | 0, _ => some dst
  | n + 1, i =>
    match put dst i bs with
    | none => none
    | some dst' => repLoop dst' bs n (i + bs.length)

/-- core/kos_string.c:1566-1617 `KOS_string_repeat`. -/
def repeatStr (env : Env) (s : S) (num : Nat) : Out S :=
  if s.len = 0 ∨ num = 0 then .ok empty
  else if num = 1 then .ok s
  else if num > 0xFFFF ∨ s.len * num % 4294967296 > 0xFFFF then .raise .tooManyRepeats
  else
    match newEmpty env (s.len * num) s.width s.ascii with
    | .bad => .bad
    | .raise e => .raise e
    | .ok d =>
      if s.len * s.width.bytes ≤ s.mem.length then
        match repLoop d.mem (s.mem.take (s.len * s.width.bytes)) num 0 with
        | none => .bad
        | some m => .ok { d with mem := m }
      else .bad

/-- modules/kos_mod_base.c:4113-4139 `repeats`, the method of strings. -/
def repeats (env : Env) (s : S) (num : Int) : Out S :=
  if num < 0 ∨ num > 0xFFFF ∨ num * s.len > 0xFFFF then .raise .tooManyRepeats
  else repeatStr env s num.toNat

/-- Loops of `KOS_string_lowercase` and `KOS_string_uppercase`, core/kos_string.c:1651-1690 and 1724-1763; `conv` is
`towlower` or `towupper`. -/
def caseLoop (conv : Nat → Nat) (w : Width) (dst src : List Nat) : Nat → Nat → Option (List Nat)
  | 0, _ => some dst
  | n + 1, i =>
    match unit src w.bytes i with
    | none => none
    | some c =>
      let c' := if w = .w32 ∧ ¬ c < 0x10000 then c else conv c
      match put dst i (leBytes w.bytes c') with
      | none => none
      | some dst' => caseLoop conv w dst' src n (i + w.bytes)

/-- core/kos_string.c:1622-1693 `KOS_string_lowercase`, 1695-1766 `KOS_string_uppercase`. -/
def changeCase (env : Env) (conv : Nat → Nat) (s : S) : Out S :=
  if s.len = 0 then .ok empty
  else
    match newEmpty env s.len s.width s.ascii with
    | .bad => .bad
    | .raise e => .raise e
    | .ok d =>
      match caseLoop conv s.width d.mem s.mem s.len 0 with
      | none => .bad
      | some m => .ok { d with mem := m }

end Verif.Str
