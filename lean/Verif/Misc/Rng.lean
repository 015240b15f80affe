import Verif.Vm.IntOps
/-
`kos_rng_random_range` (core/kos_misc.c:695-727) and `rand_integer` (modules/kos_mod_random.c:195-248).
The two PCG generators are streams of raw 32-bit outputs (any streams); a generator state is the pair of
positions.  The rejection loops carry fuel; `none` means fuel ran out.
-/
namespace Verif.Misc
open Verif.Vm

/-- Raw outputs of the two generators `rng->pcg[0]`, `rng->pcg[1]`. -/
structure Raw where
  out0 : Nat → BitVec 32
  out1 : Nat → BitVec 32

/-- Number of outputs taken from each generator so far. -/
structure RngPos where
  p0 : Nat
  p1 : Nat

/-- `pcg_random(&rng->pcg[sel])`. -/
def pcgNext (raw : Raw) (sel : Bool) (s : RngPos) : Nat × RngPos :=
  if sel then ((raw.out1 s.p1).toNat, { s with p1 := s.p1 + 1 })
  else ((raw.out0 s.p0).toNat, { s with p0 := s.p0 + 1 })

/-- core/kos_misc.c:688-693 `kos_rng_random`: low half from generator 0, high half from generator 1. -/
def rngRandom (raw : Raw) (s : RngPos) : Nat × RngPos :=
  let (low, s) := pcgNext raw false s
  let (high, s) := pcgNext raw true s
  (high * 2 ^ 32 + low, s)

/-- core/kos_misc.c:704-714: 32-bit rejection loop, alternating generators. -/
def loop32 (raw : Raw) (mask threshold : Nat) : Nat → Bool → RngPos → Option (Nat × RngPos)
  | 0, _, _ => none
  | fuel + 1, sel, s =>
    let (r, s) := pcgNext raw sel s
    if r ≥ threshold then some (r % mask, s) else loop32 raw mask threshold fuel (!sel) s

/-- core/kos_misc.c:717-725: 64-bit rejection loop. -/
def loop64 (raw : Raw) (mask threshold : Nat) : Nat → RngPos → Option (Nat × RngPos)
  | 0, _ => none
  | fuel + 1, s =>
    let (r, s) := rngRandom raw s
    if r ≥ threshold then some (r % mask, s) else loop64 raw mask threshold fuel s

/-- `(~mask + 1U) % mask` in `bits`-wide unsigned arithmetic (core/kos_misc.c:706, 719). -/
def threshold (bits mask : Nat) : Nat := ((2 ^ bits - 1 - mask) + 1) % 2 ^ bits % mask

/-- core/kos_misc.c:695-727 `kos_rng_random_range`; `maxValue` is a `uint64_t`. -/
def randomRange (raw : Raw) (fuel : Nat) (maxValue : Nat) (s : RngPos) : Option (Nat × RngPos) :=
  if maxValue = 0xFFFFFFFFFFFFFFFF then some (rngRandom raw s)
  else if maxValue = 0xFFFFFFFF then some (pcgNext raw false s)
  else if maxValue < 0xFFFFFFFF then
    loop32 raw (maxValue + 1) (threshold 32 (maxValue + 1)) fuel false s
  else
    loop64 raw (maxValue + 1) (threshold 64 (maxValue + 1)) fuel s

/-- Outcome of `rand_integer` with both arguments given. -/
inductive RandRes
  | val (v : I64)
  | raise
  | ub
  | pending      -- rejection loop still running after `fuel` rounds
  deriving DecidableEq

/-- modules/kos_mod_random.c:223-247 `rand_integer` for integer `min`, `max`. -/
def randInteger (raw : Raw) (fuel : Nat) (minV maxV : I64) (s : RngPos) : RandRes :=
  if minV.toInt > maxV.toInt then .raise
  else if minV = maxV then .val minV
  else
    match cSub maxV minV with
    | .val d =>
      match randomRange raw fuel d.toNat s with
      | none => .pending
      | some (r, _) =>
        match cAdd minV (BitVec.ofNat 64 r) with
        | .val v => .val v
        | _ => .ub
    | _ => .ub

end Verif.Misc
