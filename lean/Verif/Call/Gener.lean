/-
Calls of one generator from any number of threads: core/kos_vm.c:923-1125 `prepare_call`, 1127-1164 `finish_call`, 3659-3778 (return in
`execute`), 3798-3897 `kos_call_function`; the states are those of inc/kos_entity.h:394-402.

Each step of a thread is atomic, and memory is sequentially consistent (the code writes the state with relaxed order at 1163).  The body of the
generator is any program on its frame.  Left out: generators written in C, checks of the arguments (964-982, they come before the state is
changed), and the additional test for KOS_GEN_DONE at 3141, which gives the same as 1108-1111.  Stack objects are in C48.
-/
namespace Verif.Gener

/-- inc/kos_entity.h:398-401, for an instantiated generator. -/
inductive GState
  | ready
  | active
  | running
  | done
  deriving Repr, DecidableEq

/-- One step of the body: it goes on, yields, returns, or throws. -/
inductive Micro (F V : Type)
  | go (f : F)
  | yield (v : V) (f : F)
  | ret (f : F)
  | thr (v : V) (f : F)

/-- A generator: its steps on the frame, and the write of the value with which it is resumed (`write_to_yield_reg`), and
which values are the exception for the end of a generator (`is_generator_end_exception`). -/
structure Body (F V : Type) where
  step   : F → Micro F V
  resume : F → V → F
  isEnd  : V → Bool

/-- How the body was left. -/
inductive Out (V : Type)
  | yield (v : V)
  | ret
  | thr (v : V)
  deriving Repr, DecidableEq

/-- How it is called: by an instruction for `g(x)`, or by a loop or an iterator (INSTR_NEXT, INSTR_NEXT_JUMP, `kos_call_function`). -/
inductive Instr
  | call
  | next
  deriving Repr, DecidableEq

/-- Where a thread is. -/
inductive Phase (V : Type)
  | idle
  /-- the state was read: core/kos_vm.c:962 -/
  | read (i : Instr) (x : V) (s : GState)
  /-- CAS to KOS_GEN_RUNNING succeeded: 1067-1070 -/
  | push (i : Instr) (x : V) (s : GState)
  /-- the frame is on the stack: 1072-1101 -/
  | enter (i : Instr) (x : V) (s : GState)
  /-- the body runs -/
  | run (i : Instr)
  /-- the body was left, `finish_call` comes next -/
  | finish (i : Instr) (o : Out V)
  /-- the state was written: the code of NEXT reads it again, 3729, 3739, 3882 -/
  | check (v : V)
  deriving Repr, DecidableEq

/-- What the caller gets. -/
inductive Ev (V : Type)
  /-- a value -/
  | got (v : V)
  /-- the end, when the body has returned or the generator is done -/
  | end
  | exn (v : V)
  /-- exception: the generator is running -/
  | busy
  /-- exception: there is no room on the stack -/
  | overflow
  /-- exception: no memory for the arguments -/
  | nomem
  /-- the end, instead of the value which was yielded -/
  | lost (v : V)
  deriving Repr, DecidableEq

/-- All threads and the generator.  `log` is what the body has done, `ev` what callers got, both with the latest last. -/
structure St (F V : Type) where
  g     : GState
  frame : F
  th    : Nat → Phase V
  log   : List (Nat × Out V)
  ev    : List (Nat × Ev V)

variable {F V : Type}

def St.at (s : St F V) (t : Nat) (p : Phase V) : St F V := { s with th := fun u => if u = t then p else s.th u }

def St.tell (s : St F V) (t : Nat) (e : Ev V) : St F V := { s with ev := s.ev ++ [(t, e)] }

/-- The state after the body was left: core/kos_vm.c:1134-1159 (for a generator written in Kos). -/
def Out.state : Out V → GState
  | .yield _ => .active
  | .ret => .done
  | .thr _ => .done

/-- One step of thread `t`. -/
inductive Step (b : Body F V) : St F V → St F V → Prop
  /-- core/kos_vm.c:962 -/
  | read (s : St F V) (t : Nat) (i : Instr) (x : V) (h : s.th t = .idle) : Step b s (s.at t (.read i x s.g))
  /-- 1067-1070 -/
  | cas (s : St F V) (t : Nat) (i : Instr) (x : V) (r : GState) (h : s.th t = .read i x r) (hr : r = .ready ∨ r = .active) (hg : s.g = r) :
    Step b s { s.at t (.push i x r) with g := .running }
  /-- 1067-1068 -/
  | casFail (s : St F V) (t : Nat) (i : Instr) (x : V) (r : GState) (h : s.th t = .read i x r) (hr : r = .ready ∨ r = .active) (hg : s.g ≠ r) :
    Step b s ((s.at t .idle).tell t .busy)
  /-- 1105-1106 -/
  | running (s : St F V) (t : Nat) (i : Instr) (x : V) (h : s.th t = .read i x .running) : Step b s ((s.at t .idle).tell t .busy)
  /-- 1108-1111 -/
  | done (s : St F V) (t : Nat) (i : Instr) (x : V) (h : s.th t = .read i x .done) : Step b s ((s.at t .idle).tell t .end)
  /-- 1072 -/
  | push (s : St F V) (t : Nat) (i : Instr) (x : V) (r : GState) (h : s.th t = .push i x r) : Step b s (s.at t (.enter i x r))
  /-- 1072 and 1115-1120: `kos_stack_push` fails before it changes the stack, so that the state is not restored -/
  | pushFail (s : St F V) (t : Nat) (i : Instr) (x : V) (r : GState) (h : s.th t = .push i x r) : Step b s ((s.at t .idle).tell t .overflow)
  /-- 1075-1089 -/
  | enter (s : St F V) (t : Nat) (i : Instr) (x : V) (r : GState) (h : s.th t = .enter i x r) :
    Step b s { s.at t (.run i) with frame := if r = .active then b.resume s.frame x else s.frame }
  /-- 1095-1098 and 1115-1120: after the push, the state is restored -/
  | enterFail (s : St F V) (t : Nat) (i : Instr) (x : V) (r : GState) (h : s.th t = .enter i x r) :
    Step b s { (s.at t .idle).tell t .nomem with g := r }
  /-- the body -/
  | go (s : St F V) (t : Nat) (i : Instr) (f : F) (h : s.th t = .run i) (hs : b.step s.frame = .go f) : Step b s { s with frame := f }
  | yield (s : St F V) (t : Nat) (i : Instr) (v : V) (f : F) (h : s.th t = .run i) (hs : b.step s.frame = .yield v f) :
    Step b s { s.at t (.finish i (.yield v)) with frame := f, log := s.log ++ [(t, .yield v)] }
  | ret (s : St F V) (t : Nat) (i : Instr) (f : F) (h : s.th t = .run i) (hs : b.step s.frame = .ret f) :
    Step b s { s.at t (.finish i .ret) with frame := f, log := s.log ++ [(t, .ret)] }
  | thr (s : St F V) (t : Nat) (i : Instr) (v : V) (f : F) (h : s.th t = .run i) (hs : b.step s.frame = .thr v f) :
    Step b s { s.at t (.finish i (.thr v)) with frame := f, log := s.log ++ [(t, .thr v)] }
  /-- 1127-1164, after a yield: a call (3754-3762) gives the value back -/
  | finishCall (s : St F V) (t : Nat) (v : V) (h : s.th t = .finish .call (.yield v)) :
    Step b s { (s.at t .idle).tell t (.got v) with g := .active }
  /-- 1127-1164, after a yield: NEXT goes on to read the state -/
  | finishNext (s : St F V) (t : Nat) (v : V) (h : s.th t = .finish .next (.yield v)) : Step b s { s.at t (.check v) with g := .active }
  /-- 1127-1164, after a return -/
  | finishRet (s : St F V) (t : Nat) (i : Instr) (h : s.th t = .finish i .ret) : Step b s { (s.at t .idle).tell t .end with g := .done }
  /-- 1127-1164, after an exception; 3708-3715: a loop takes the exception which stands for the end of a generator as its own end, also when it came
  from another generator which the body called -/
  | finishThr (s : St F V) (t : Nat) (i : Instr) (v : V) (h : s.th t = .finish i (.thr v)) : Step b s { (s.at t .idle).tell t (if i = .next ∧ b.isEnd v = true then .end else .exn v) with g := .done }
  /-- 3729-3730, 3751, 3882 -/
  | check (s : St F V) (t : Nat) (v : V) (h : s.th t = .check v) (hg : s.g ≠ .done) : Step b s ((s.at t .idle).tell t (.got v))
  /-- 3731-3732, 3739-3748, 3882-3891: the value is dropped -/
  | drop (s : St F V) (t : Nat) (v : V) (h : s.th t = .check v) (hg : s.g = .done) : Step b s ((s.at t .idle).tell t (.lost v))

/-- A generator which was just instantiated (core/kos_vm.c:1020-1059). -/
def init (f : F) : St F V := ⟨.ready, f, fun _ => .idle, [], []⟩

inductive Reach (b : Body F V) (s₀ : St F V) : St F V → Prop
  | refl : Reach b s₀ s₀
  | step (s s' : St F V) (h : Reach b s₀ s) (hs : Step b s s') : Reach b s₀ s'

/-- Thread `t` has the generator: its body runs, or is about to, or was just left. -/
def Phase.Holds : Phase V → Prop
  | .push _ _ _ | .enter _ _ _ | .run _ | .finish _ _ => True
  | _ => False

/-- The body runs. -/
def Phase.Runs : Phase V → Prop
  | .run _ => True
  | _ => False

end Verif.Gener
