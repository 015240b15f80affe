/-
  C80: the queue and the stack of module threads are a queue and a stack for
  threads which use them at the same time, and no wake-up is lost.
-/
import Verif.Thr.Proof

namespace Verif.Thr

/-- Runs steps of threads one after another. -/
def run (k : Kind) (n : Nat) : List (Nat × Act) → S × List Event → Option (S × List Event)
  | [], x => some x
  | (t, a) :: l, (s, h) =>
    match next k n t a s with
    | .ok s' r => run k n l (s', h ++ (if a = .go then event t s r else []))
    | _ => none

/-- What is left of a run: the elements, the value of the semaphore and the events. -/
def result (k : Kind) (n : Nat) (l : List (Nat × Act)) : Option (List Nat × Nat × List Event) :=
  (run k n l (.init, [])).map fun x => (x.1.coll.drop x.1.front, x.1.value, x.2)

/-- The queue and the stack do, in the order in which threads get the mutex, what a
    queue and a stack do: no element is lost, made up, returned twice or out of
    order, and every pop returns as many elements as it was asked for. -/
theorem C80_behaves {k : Kind} {n : Nat} {s : S} {h : List Event} (r : Reach k n s h) :
    Behaves k h (s.coll.drop s.front) :=
  reach_behaves r

/-- Thread 0 pushes 5, 6, 7; thread 1 waits for two elements and gets them. -/
def handOver : List (Nat × Act) :=
  [(1, .pop 2), (1, .go), (1, .go), (1, .go), (0, .push [5, 6, 7]), (0, .go), (0, .go), (0, .go), (0, .go), (0, .go),
   (0, .go), (0, .go), (1, .go), (1, .go), (1, .go), (1, .go), (1, .go), (1, .go)]

example : result .queue 2 handOver = some ([7], 1, [.push [5, 6, 7], .pop 2 [5, 6]]) := by decide +kernel
example : result .stack 2 handOver = some ([5], 1, [.push [5, 6, 7], .pop 2 [6, 7]]) := by decide +kernel

/-- A queue returns what was pushed, in the same order. -/
theorem C80_fifo {n : Nat} {s : S} {h : List Event} (r : Reach .queue n s h) :
    pushed h = popped h ++ s.coll.drop s.front := by
  have := reach_behaves r
  generalize s.coll.drop s.front = q at this
  clear r
  have key : ∀ {k h q}, Behaves k h q → k = .queue → pushed h = popped h ++ q := by
    intro k h q b
    induction b with
    | empty => intro _; rfl
    | push _ ih => intro e; rw [pushed_append, popped_append, ih e]; simp [pushed, popped]
    | queue _ ih => intro e; rw [pushed_append, popped_append, ih e]; simp [pushed, popped]
    | stack => intro e; cases e
  exact key this rfl

/-- A stack returns what was pushed, each element once. -/
theorem C80_lifo {n : Nat} {s : S} {h : List Event} (r : Reach .stack n s h) :
    (pushed h).Perm (popped h ++ s.coll.drop s.front) := by
  have := reach_behaves r
  generalize s.coll.drop s.front = q at this
  clear r
  have key : ∀ {k h q}, Behaves k h q → k = .stack → (pushed h).Perm (popped h ++ q) := by
    intro k h q b
    induction b with
    | empty => intro _; exact .refl _
    | @push _ h q l _ ih =>
      intro e; rw [pushed_append, popped_append]
      simp only [pushed, popped, List.append_nil]
      rw [← List.append_assoc]
      exact (ih e).append_right _
    | queue => intro e; cases e
    | @stack h r q _ ih =>
      intro e; rw [pushed_append, popped_append]
      simp only [pushed, popped, List.append_nil]
      refine (ih e).trans ?_
      rw [List.append_assoc]
      exact List.Perm.append_left _ List.perm_append_comm
  exact key this rfl

/-- A pop which acquired the semaphore finds its elements: it does not throw. -/
theorem C80_never_fails {k : Kind} {n : Nat} {s : S} {h : List Event} (r : Reach k n s h) (t : Nat) (a : Act) :
    next k n t a s ≠ .fails := by
  unfold next
  split
  · rename_i ht
    have := step_good (a := a) (reach_inv r) ht
    intro e
    rw [e] at this
    exact this
  · simp

/-- The value of the semaphore stays in its range, and is at most the number of
    elements. -/
theorem C80_value {k : Kind} {n : Nat} {s : S} {h : List Event} (r : Reach k n s h) :
    s.value ≤ 0x7FFFFFFF ∧ s.value ≤ (s.coll.drop s.front).length ∧ s.size = (s.coll.drop s.front).length := by
  have i := reach_inv r
  have h1 := i.acc
  have h2 := i.len
  refine ⟨i.val, ?_, ?_⟩ <;> rw [List.length_drop] <;> omega

/-- Cannot do anything: it is in no call, or whatever it does next has to wait. -/
def Still (k : Kind) (n : Nat) (s : S) : Prop :=
  ∀ t, ∀ s' r, next k n t .go s ≠ .ok s' r

/-- Has called pop for `num` elements, has got all but `c` of them, and waits on the
    condition variable. -/
def Waits (s : S) (t num c : Nat) : Prop := s.pc t = .acqW num c false

/-- No wake-up is lost: while a thread waits on the condition variable and the value is
    not 0, another one is about to wake it (it has increased the value and has not
    yet signalled). -/
theorem C80_woken {k : Kind} {n : Nat} {s : S} {h : List Event} (r : Reach k n s h) {t num c : Nat}
    (w : Waits s t num c) (v : s.value ≠ 0) : ∃ u, s.pc u = .relU ∨ s.pc u = .relB := by
  obtain ⟨u, hu⟩ := (reach_inv r).wk t (by unfold Waits at w; rw [w]; rfl) v
  refine ⟨u, ?_⟩
  cases e : s.pc u <;> rw [e] at hu <;> first | (exact .inl rfl) | (exact .inr rfl) | skip
  case acqW a b c => cases c <;> cases hu
  case acq a b c => cases c <;> cases hu
  all_goals cases hu

/-- If nobody can go on, every thread either has nothing to do or waits for elements,
    and if one waits, the semaphore is 0: no thread sleeps while there is something
    to take, and nobody waits for a mutex for ever. -/
theorem C80_progress {k : Kind} {n : Nat} {s : S} {h : List Event} (r : Reach k n s h) (st : Still k n s) :
    ∀ t, s.pc t = .idle ∨ ((∃ num c, Waits s t num c ∧ 1 ≤ c ∧ c ≤ num) ∧ s.value = 0) :=
  still (reach_inv r) st

/-- Two threads which ask for two elements each may block each other if there are
    two: each has got one. -/
def shared : List (Nat × Act) :=
  [(0, .push [5]), (0, .go), (0, .go), (0, .go), (0, .go), (0, .go), (0, .go), (0, .go),
   (1, .pop 2), (1, .go), (1, .go), (1, .go), (1, .go), (1, .go),
   (0, .push [6]), (0, .go), (0, .go), (0, .go), (0, .go), (0, .go),
   (2, .pop 2), (2, .go), (2, .go), (0, .go), (0, .go), (1, .go), (1, .go), (2, .go), (2, .go), (2, .go)]

example : (run .queue 3 shared (.init, [])).map (fun x => (x.1.coll, x.1.value, x.1.pc 0, x.1.pc 1, x.1.pc 2)) =
    some ([5, 6], 0, .idle, .acqW 2 1 false, .acqW 2 1 false) := by decide +kernel

/-- If nobody can go on, every pop which waits has asked for one element and no push
    has thrown, then either nobody waits or there are no elements. -/
theorem C80_blocked {k : Kind} {n : Nat} {s : S} {h : List Event} (r : Reach k n s h) (st : Still k n s)
    (one : ∀ t num c, Waits s t num c → num = 1) (nf : s.failed = 0) :
    (∀ t, s.pc t = .idle) ∨ s.coll.drop s.front = [] := by
  by_cases e : ∀ t, s.pc t = .idle
  · exact .inl e
  · right
    have p := C80_progress r st
    have i := reach_inv r
    have v : s.value = 0 := by
      simp only [Classical.not_forall] at e
      obtain ⟨t, e⟩ := e
      exact ((p t).resolve_left e).2
    have w : ∀ t, weight (s.pc t) = 0 := by
      intro t
      rcases p t with e | ⟨⟨num, c, e, h1, h2⟩, _⟩
      · rw [e]; rfl
      · have := one t num c e
        unfold Waits at e
        rw [e]; simp only [weight]; omega
    have tot : ∀ l, total l s.pc = 0 := by
      intro l
      induction l with
      | nil => rfl
      | cons a l ih => simp only [total, List.map_cons, List.sum_cons, w] at ih ⊢; rw [ih]
    have a := i.acc
    have b := i.len
    rw [tot] at a
    rw [List.drop_eq_nil_iff]
    omega

end Verif.Thr
