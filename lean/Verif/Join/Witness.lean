/-
  Executions in which something goes wrong.
-/
import Verif.Join.Thms
namespace Verif.Join

/-- Steps, one after the other. -/
def exec (max : Nat) : List (Nat × Act) → S → Res
  | [], s => .ok s
  | (a, x) :: l, s =>
    match step max a x s with
    | .ok s' => exec max l s'
    | r => r

/-- How it ends. -/
def Res.why : Res → Option Why
  | .fails w => some w
  | _ => none

/-- The thread which a thread at `p` starts is below `n`. -/
def below (n : Nat) : Pc → Bool
  | .cCreate t => decide (t < n)
  | _ => true

/-- The same, if threads from `n` on do not exist and `ok` holds in all states. -/
def execIf (ok : S → Bool) (n max : Nat) : List (Nat × Act) → S → Option Res
  | [], s => some (.ok s)
  | (a, x) :: l, s =>
    match step max a x s with
    | .ok s' =>
      if a < n ∧ below n (s.pc a) = true ∧ ok s' = true then execIf ok n max l s'
      else none
    | r => some r

theorem step_beyond {max a x s s' n} (h : step max a x s = .ok s') (hs : ∀ t, n ≤ t → s.pc t = .none) (ha : a < n)
    (hc : ∀ t, s.pc a = .cCreate t → t < n) : ∀ t, n ≤ t → s'.pc t = .none := by
  intro t ht
  have := hs t ht
  cases hp : s.pc a <;>
    simp only [step, hp, allocSlot, setFlag, addRef, release, back, scanEnd, look, nextSlot, afterJoin, call, readResult, access, goto] at h <;>
    (repeat' split at h) <;>
    first
    | (cases h; done)
    | (injection h with h
       subst h
       simp only [upd]
       grind)

/-- No two of the first `n` threads wait for the same thread. -/
def alone (n : Nat) (s : S) : Bool :=
  (List.range n).all fun a => (List.range n).all fun b =>
    a == b || (match s.pc a, s.pc b with
      | .wCheck t, .wCheck u | .wCheck t, .wSwap u | .wSwap t, .wCheck u | .wSwap t, .wSwap u => t != u
      | _, _ => true)

theorem alone_lone {n s} (h : alone n s = true) (hs : ∀ t, n ≤ t → s.pc t = .none) : ¬ Contended s := by
  rintro ⟨a, b, t, hab, h1, h2⟩
  have lt : ∀ c, Asks s c t → c < n := by
    intro c hc
    by_cases e : c < n
    · exact e
    · have := hs c (Nat.le_of_not_lt e)
      rcases hc with hc | hc <;> rw [this] at hc <;> cases hc
  simp only [alone, List.all_eq_true, List.mem_range] at h
  have := h a (lt a h1) b (lt b h2)
  rcases h1 with h1 | h1 <;> rcases h2 with h2 | h2 <;> simp [h1, h2, hab] at this

theorem polite_of_exec {n max l s w} (h : (execIf (alone n) n max l s).bind Res.why = some w) (hp : Polite max s)
    (hs : ∀ t, n ≤ t → s.pc t = .none) : ∃ s' a x, Polite max s' ∧ step max a x s' = .fails w := by
  induction l generalizing s with
  | nil => simp [execIf, Res.why] at h
  | cons y l ih =>
    obtain ⟨a, x⟩ := y
    simp only [execIf] at h
    split at h
    · rename_i s' e
      split at h
      · rename_i hc
        have hb := step_beyond e hs hc.1 (by intro t ht; have := hc.2.1; rw [ht] at this; simpa [below] using this)
        exact ih h (.step hp e (alone_lone hc.2.2 hb)) hb
      · simp at h
    · rename_i e
      cases he : step max a x s with
      | ok s' => exact absurd he (e s')
      | no => rw [he] at h; simp [Res.why] at h
      | fails v =>
        rw [he] at h; simp [Res.why] at h; subst h
        exact ⟨s, a, x, hp, he⟩

/-- The main thread is not in kos_join_finished_threads. -/
def noScan (s : S) : Bool := scanOf (s.pc 0) == none

theorem calm_of_exec {n max l s w} (h : (execIf noScan n max l s).bind Res.why = some w) (hp : Calm max s) :
    ∃ s' a x, Calm max s' ∧ step max a x s' = .fails w := by
  induction l generalizing s with
  | nil => simp [execIf, Res.why] at h
  | cons y l ih =>
    obtain ⟨a, x⟩ := y
    simp only [execIf] at h
    split at h
    · rename_i s' e
      split at h
      · rename_i hc
        refine ih h (.step hp e ?_)
        rintro ⟨c, h1, _⟩
        have := hc.2.2
        simp [noScan, h1] at this
      · simp at h
    · rename_i e
      cases he : step max a x s with
      | ok s' => exact absurd he (e s')
      | no => rw [he] at h; simp [Res.why] at h
      | fails v =>
        rw [he] at h; simp [Res.why] at h; subst h
        exact ⟨s, a, x, hp, he⟩

/-- Thread `a` calls async. -/
def creates (a : Nat) : List (Nat × Act) := (a, .async) :: List.replicate 4 (a, .go)
/-- Thread `a` starts, and its function gives `v`. -/
def ends (a v : Nat) : List (Nat × Act) := (a, .go) :: (a, .give (.ret v)) :: List.replicate 3 (a, .go)
/-- `n` steps of thread `a`. -/
def goes (a n : Nat) : List (Nat × Act) := List.replicate n (a, .go)

/-- Threads 0 and 2 wait for thread 1: thread 2 has got the pointer of the object and
    looks at its thread, which thread 0 has released. -/
def twoWait : List (Nat × Act) :=
  creates 0 ++ creates 0 ++ goes 2 1 ++ [(2, .wait 1), (0, .wait 1)] ++ ends 1 7 ++ goes 0 13 ++ goes 2 1

/-- Threads 1 and 2 have ended, threads 3 and 4 run.  The main thread counts 2 which have
    ended; then threads 3 and 4 wait for them, and 2 threads are left.  The main thread
    takes it that all have ended, and waits for thread 3, for which thread 4 waits, too. -/
def early : List (Nat × Act) :=
  creates 0 ++ creates 0 ++ creates 0 ++ creates 0 ++ ends 1 7 ++ ends 2 8 ++ goes 3 1 ++ goes 4 1 ++
  [(0, .exit)] ++ goes 0 9 ++ [(3, .wait 1)] ++ goes 3 13 ++ [(4, .wait 2)] ++ goes 4 13 ++
  goes 0 10 ++ [(4, .wait 3)] ++ goes 4 4

end Verif.Join
