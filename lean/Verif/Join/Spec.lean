/-
  What can be expected of threads.
-/
import Verif.Join.Model

namespace Verif.Join

/-- The call of kos_join_finished_threads which a thread at `p` is in. -/
@[grind] def scanOf (p : Pc) : Option Scan :=
  match p with
  | .fLook c | .fCas _ _ c | .fRef _ c | .fRel _ c | .fNext c => some c
  | .jSelf _ (.scan c) | .jOs _ (.scan c) | .jWait _ (.scan c) | .jRes _ (.scan c) | .jFlag _ (.scan c) | .rIdx _ (.scan c)
  | .rSlot _ _ (.scan c) | .rNum _ (.scan c) | .rRel _ (.scan c) => some c
  | _ => none

/-- Executes nothing of the program any more, or yet. -/
@[grind] def finished (p : Pc) : Bool :=
  match p with
  | .none | .tUnreg | .dead => true
  | _ => false

/-- The main thread has decided to wait for all threads, though some of them still run. -/
def Hasty (s : S) : Prop :=
  ∃ c, scanOf (s.pc 0) = some c ∧ c.rest = true ∧ ∃ t, t ≠ 0 ∧ finished (s.pc t) = false

/-- States which are reached by steps of threads, in any order. -/
inductive Reach (max : Nat) : S → Prop
  | init : Reach max init
  | step {s s' : S} {a : Nat} {x : Act} : Reach max s → step max a x s = .ok s' → Reach max s'

/-- The same, as long as the main thread does not decide too early. -/
inductive Calm (max : Nat) : S → Prop
  | init : Calm max init
  | step {s s' : S} {a : Nat} {x : Act} : Calm max s → step max a x s = .ok s' → ¬ Hasty s' → Calm max s'

/-- It is in `wait`, and has not taken the thread of the object. -/
def Asks (s : S) (a t : Nat) : Prop := s.pc a = .wCheck t ∨ s.pc a = .wSwap t

/-- Two threads wait for the same thread at a time. -/
def Contended (s : S) : Prop := ∃ a b t, a ≠ b ∧ Asks s a t ∧ Asks s b t

/-- States which are reached as long as at most one thread at a time waits for a thread. -/
inductive Polite (max : Nat) : S → Prop
  | init : Polite max init
  | step {s s' : S} {a : Nat} {x : Act} : Polite max s → step max a x s = .ok s' → ¬ Contended s' → Polite max s'

/-- Both. -/
inductive Orderly (max : Nat) : S → Prop
  | init : Orderly max init
  | step {s s' : S} {a : Nat} {x : Act} : Orderly max s → step max a x s = .ok s' → ¬ Hasty s' → ¬ Contended s' → Orderly max s'

/-- The thread whose function gave something. -/
@[grind] def gaver : Event → Option Nat
  | .gave t _ => some t
  | _ => none

/-- The thread whose result was delivered. -/
@[grind] def giver : Event → Option Nat
  | .got _ t _ => some t
  | _ => none

/-- The function of each thread gives one result; it is delivered at most once, and not changed. -/
structure Delivered (l : List Event) : Prop where
  gaveOnce : (l.filterMap gaver).Nodup
  gotOnce : (l.filterMap giver).Nodup
  same : ∀ a t r, .got a t r ∈ l → .gave t r ∈ l

end Verif.Join
