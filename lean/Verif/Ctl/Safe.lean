import Verif.Ctl.Cond

/-
For which statements the compiled code restores the right exception handler when `break`, `continue` or `fallthrough` leaves a `try`.

The `try` statements around are numbered by their depth.  `top` is the innermost `try` whose block we are in, `last` the one noted when the
innermost loop was entered.
-/
namespace Verif.Ctl

variable {σ V : Type}

/-- What is expected at the place where a jump leads: `no` such place, `any` handler (which is replaced there), or the handler of the
given `try`. -/
inductive Want
  | no
  | any
  | at (h : Option Nat)
  deriving DecidableEq, Repr

/-- In a loop, `break` and `continue` lead to where `top` is the innermost. -/
def loopWant (w : Kind → Want) (top : Option Nat) : Kind → Want
  | .brk => .at top
  | .cont => .at top
  | .fall => w .fall

/-- In a case of `switch`. -/
def caseWant (w : Kind → Want) (top : Option Nat) (last : Bool) : Kind → Want
  | .brk => .at top
  | .cont => w .cont
  | .fall => if last then .no else .at top

/-- In a block with deferred code: jumps lead to a copy of this code, which installs handler `top`; after it the jump goes on. -/
def deferWant (w : Kind → Want) (top : Option Nat) (k : Kind) : Want :=
  match w k with
  | .no => .no
  | .any => .any
  | .at h => if h = top then .any else .no

/-- The handler installed by `break`, `continue` or `fallthrough`. -/
def landed (top last : Option Nat) : Option Nat :=
  match last with
  | some r => some r
  | none => top

/-- `last` in a loop. -/
def inLoop (top last : Option Nat) : Option Nat :=
  match top with
  | some r => some r
  | none => last

def Cases.isNil : Cases → Bool
  | .nil => true
  | _ => false

mutual
/-- Every jump is in a place where it is allowed and arrives with the right handler, and all conditions are straight. -/
def Safe (top last : Option Nat) (d : Nat) (w : Kind → Want) : Stmt → Prop
  | .skip => True
  | .act _ => True
  | .seq a b => Safe top last d w a ∧ Safe top last d w b
  | .ite c t => Straight c ∧ Safe top last d w t
  | .itee c t e => Straight c ∧ Safe top last d w t ∧ Safe top last d w e
  | .while c b => Straight c ∧ Safe top (inLoop top last) d (loopWant w top) b
  | .repeat b c => Straight c ∧ Safe top (inLoop top last) d (loopWant w top) b
  | .forIn _ _ b => Safe top (inLoop top last) d (loopWant w top) b
  | .switch _ cs => SafeCases top last d w cs
  | .jump k =>
    match w k with
    | .no => False
    | .any => True
    | .at h => landed top last = h
  | .ret _ => True
  | .throw _ => True
  | .assert c _ => Straight c
  | .tryCatch b h => Safe (some d) last (d + 1) w b ∧ Safe top last (d + 1) w h
  | .tryDefer b f => Safe (some d) last (d + 1) (deferWant w top) b ∧ Safe top last (d + 1) w f

def SafeCases (top last : Option Nat) (d : Nat) (w : Kind → Want) : Cases → Prop
  | .nil => True
  | .cons _ b _ rest => Safe top last d (caseWant w top rest.isNil) b ∧ SafeCases top last d w rest
end

mutual
/-- Constants in conditions are what they are said to be. -/
def KnownS (S : Sem σ V) : Stmt → Prop
  | .skip => True
  | .act _ => True
  | .seq a b => KnownS S a ∧ KnownS S b
  | .ite c t => Known S c ∧ KnownS S t
  | .itee c t e => Known S c ∧ KnownS S t ∧ KnownS S e
  | .while c b => Known S c ∧ KnownS S b
  | .repeat b c => Known S c ∧ KnownS S b
  | .forIn _ _ b => KnownS S b
  | .switch _ cs => KnownCs S cs
  | .jump _ => True
  | .ret _ => True
  | .throw _ => True
  | .assert c _ => Known S c
  | .tryCatch b h => KnownS S b ∧ KnownS S h
  | .tryDefer b f => KnownS S b ∧ KnownS S f

def KnownCs (S : Sem σ V) : Cases → Prop
  | .nil => True
  | .cons _ b _ rest => KnownS S b ∧ KnownCs S rest
end

end Verif.Ctl
