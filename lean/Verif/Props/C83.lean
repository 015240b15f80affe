/-
  C83: threads are created, waited for and released.
-/
import Verif.Join.Witness

namespace Verif.Join

/-- Nothing fails, whatever the threads do in which order: no thread is used after its
    memory was released, pthread_join is called once for a thread, and assertions hold. -/
def Safe : Prop := ∀ max s a x w, Reach max s → step max a x s ≠ .fails w

theorem calm_reach {max s} (h : Calm max s) : Reach max s := by
  induction h with
  | init => exact .init
  | step _ h2 _ ih => exact .step ih h2

theorem polite_reach {max s} (h : Polite max s) : Reach max s := by
  induction h with
  | init => exact .init
  | step _ h2 _ ih => exact .step ih h2

/-- Two threads which wait for the same thread: memory is used which was released.
    The main thread does not decide anything too early. -/
theorem C83_wait_violated : ∃ s a x, Calm 2 s ∧ step 2 a x s = .fails .freed :=
  calm_of_exec (n := 4) (l := twoWait) (by decide +kernel) .init

/-- Nobody waits for a thread for which somebody else waits, except the main thread when
    it ends the program: pthread_join is called twice for a thread. -/
theorem C83_rest_violated : ∃ s a x, Polite 4 s ∧ step 4 a x s = .fails .twice :=
  polite_of_exec (n := 6) (l := early) (by decide +kernel) .init (by
    intro t ht
    have : t ≠ 0 := by omega
    simp [init, this])

theorem C83_violated : ¬ Safe := by
  intro h
  obtain ⟨s, a, x, h1, h2⟩ := C83_wait_violated
  exact h 2 s a x .freed (calm_reach h1) h2

/-- As long as no two threads wait for the same thread and the main thread does not take
    it that all threads have ended when they have not, nothing fails.  Missing: the two
    cases above. -/
theorem C83_safe_partial (max : Nat) (s : S) (h : Orderly max s) (a : Nat) (x : Act) (w : Why) : step max a x s ≠ .fails w :=
  orderly_safe h

/-- If only the second is left out, the one thing which fails is the look of `wait` at a
    thread which another call of `wait` has released. -/
theorem C83_fails_partial (max : Nat) (s : S) (h : Calm max s) (a : Nat) (x : Act) (w : Why) (hf : step max a x s = .fails w) :
    w = .freed ∧ ∃ t, s.pc a = .wCheck t ∧ s.alive t = false :=
  calm_fails h hf

/-- Results of threads are delivered at most once, as they were given. -/
theorem C83_delivered_partial (max : Nat) (s : S) (h : Calm max s) : Delivered s.log :=
  calm_delivered h

/-- When KOS_instance_destroy goes on, all other threads have ended. -/
theorem C83_ended_partial (max : Nat) (s : S) (h : Calm max s) (hp : s.pc 0 = .destroy) :
    ∀ t, t ≠ 0 → s.pc t = .none ∨ s.pc t = .dead :=
  calm_ended h hp

/-- When it has finalized all thread objects, the memory of all threads is released. -/
theorem C83_released_partial (max : Nat) (s : S) (h : Calm max s) (hp : s.pc 0 = .destroy) (hpr : ∀ t, s.priv t = false) :
    ∀ t, s.alive t = false :=
  calm_released h hp hpr

/-- Some of a state. -/
def Res.look (n : Nat) : Res → Option (List Pc × List Bool × Int × List Event)
  | .ok s => some ((List.range n).map s.pc, (List.range n).map s.alive, s.num, s.log)
  | _ => none

/-- One thread is waited for, another is collected while it runs; then the program ends. -/
def orderlyEnd : List (Nat × Act) :=
  creates 0 ++ creates 0 ++ [(0, .wait 1)] ++ goes 0 4 ++ ends 1 7 ++ goes 0 9 ++ goes 2 1 ++ [(0, .collect 2)] ++ goes 0 2 ++
  [(0, .exit)] ++ goes 0 9 ++ [(2, .give (.exc 5))] ++ goes 2 3 ++ goes 0 9

example : (exec 2 orderlyEnd init).look 3 =
    some ([.destroy, .dead, .dead], [false, false, false], 0,
      [.gave 1 (.ret 7), .got 0 1 (.ret 7), .gave 2 (.exc 5), .got 0 2 (.exc 5)]) := by
  decide +kernel

/-- A table for one thread: the second call of async fails, and releases its thread. -/
example : (exec 1 (creates 0 ++ [(0, .async), (0, .go)]) init).look 3 = some ([.run, .start, .none], [false, true, false], 1, []) := by
  decide +kernel

end Verif.Join
