import Verif.Conc.ArrayGrow

/-
C18: while one thread at a time grows an array and any number of threads read, write and compare-and-swap its elements, the array behaves as a list
on which every operation happens at once: in every interleaving, the results are those of the operations on the list in the order in which they
return.
-/
namespace Verif.Conc

/-- Runs a schedule; there is no result if a step is impossible or bad. -/
def play (r : Rules) (s : St) : List (Nat × Choice) → Option (List Ev × St)
  | [] => some ([], s)
  | (t, ch) :: p =>
    match step r s t ch with
    | .ok s' none => play r s' p
    | .ok s' (some e) => (play r s' p).map (fun x => (e :: x.1, x.2))
    | _ => none

theorem play_run (r : Rules) (n : Nat) (p : List (Nat × Choice)) (s s' : St) (es : List Ev) (hp : ∀ x ∈ p, x.1 < n) (h : play r s p = some (es, s')) :
    Run r n s es s' := by
  induction p generalizing s es with
  | nil =>
    simp only [play, Option.some.injEq, Prod.mk.injEq] at h
    rw [← h.1, ← h.2]; exact .nil s
  | cons x p ih =>
    obtain ⟨t, ch⟩ := x
    have ht : t < n := hp (t, ch) (by simp)
    simp only [play] at h
    split at h
    · next s1 hs => exact .quiet _ _ _ _ t ch ht hs (ih s1 es (fun x hx => hp x (by simp [hx])) h)
    · next s1 e hs =>
      simp only [Option.map_eq_some_iff] at h
      obtain ⟨⟨es1, s2⟩, h1, h2⟩ := h
      simp only [Prod.mk.injEq] at h2
      rw [← h2.1]
      rw [h2.2] at h1
      exact .event _ _ _ _ _ t ch ht hs (ih s1 es1 (fun x hx => hp x (by simp [hx])) h1)
    · simp at h

theorem run_inv {n : Nat} {s s' : St} {es : List Ev} (hr : Run ⟨true, true⟩ n s es s') :
    ∀ l, Inv n s l → ∃ l', Atomics l es l' ∧ Inv n s' l' := by
  induction hr with
  | nil s => intro l h; exact ⟨l, .nil l, h⟩
  | quiet s s' s'' es t ch ht hs _ ih =>
    intro l h
    have := step_good h ht ch
    rw [hs] at this
    exact ih l this
  | event s s' s'' e es t ch ht hs _ ih =>
    intro l h
    have := step_good h ht ch
    rw [hs] at this
    obtain ⟨l1, h1, h2⟩ := this
    obtain ⟨l2, h3, h4⟩ := ih l1 h2
    exact ⟨l2, .cons _ _ _ _ _ h1 h3, h4⟩

/-- A thread which reads element `i` with nobody else running. -/
theorem read_returns {n : Nat} {s : St} {l : List Nat} (h : Inv n s l) (t i v : Nat) (ht : s.th t = .idle) (hi : l[i]? = some v) :
    ∃ p s', (∀ x ∈ p, x.1 = t) ∧ p.length ≤ 6 ∧ play ⟨true, true⟩ s p = some ([.read i (.val v)], s') := by
  have hlt : i < l.length := (List.getElem?_eq_some_iff.mp hi).1
  have hsize : i < s.size := by have : l.length ≤ s.size := h.sh.len; omega
  have hcap : i < s.cap s.data := by have : s.size ≤ s.cap s.data := h.sh.size; omega
  have hrel := h.sh.rel i
  have hov : ofList l i = .val v := by simp [ofList, hi]
  rw [hov] at hrel
  have e1 : step ⟨true, true⟩ s t (.op (.read i)) = .ok (s.goto t (.size (.read i))) none := by unfold step; rw [ht]
  have th1 : ∀ (s : St) x, (s.goto t x).th t = x := by intro s x; simp [St.goto, upd]
  have e2 : step ⟨true, true⟩ (s.goto t (.size (.read i))) t .go = .ok ((s.goto t (.size (.read i))).goto t (.data (.read i))) none := by
    unfold step; rw [th1]; dsimp only; rw [if_pos (by exact hsize)]
  generalize hs2 : (s.goto t (.size (.read i))).goto t (.data (.read i)) = s2 at e2
  have m2 : s2.toMem = s.toMem := by rw [← hs2]; rfl
  have t2 : s2.th t = .data (.read i) := by rw [← hs2]; exact th1 _ _
  have e3 : step ⟨true, true⟩ s2 t .go = .ok (s2.goto t (.acc (.read i) s.data)) none := by unfold step; rw [t2]; dsimp only; rw [m2]
  generalize hs3 : s2.goto t (.acc (.read i) s.data) = s3 at e3
  have m3 : s3.toMem = s.toMem := by rw [← hs3]; exact m2
  have t3 : s3.th t = .acc (.read i) s.data := by rw [← hs3]; exact th1 _ _
  by_cases hc : s.mem s.data i = .closed
  · rw [cell_closed hc] at hrel
    have hlast : s.data < s.last := by
      have h1 : s.data ≤ s.last := h.sh.dl
      have h2 : s.mem s.last i ≠ .closed := h.sh.front i
      by_cases hd : s.data = s.last
      · rw [hd] at hc; exact absurd hc h2
      · omega
    have hcap1 : i < s.cap (s.data + 1) := by have : s.cap s.data ≤ s.cap (s.data + 1) := h.sh.caps _ hlast; omega
    have e4 : step ⟨true, true⟩ s3 t .go = .ok (s3.goto t (.next (.read i) s.data)) none := by
      unfold step; rw [t3]; dsimp only; rw [m3, if_pos (by exact hcap)]
      unfold look
      rw [m3]
      simp only [Op.index, hc]
    generalize hs4 : s3.goto t (.next (.read i) s.data) = s4 at e4
    have m4 : s4.toMem = s.toMem := by rw [← hs4]; exact m3
    have t4 : s4.th t = .next (.read i) s.data := by rw [← hs4]; exact th1 _ _
    have e5 : step ⟨true, true⟩ s4 t .go = .ok (s4.goto t (.acc (.read i) (s.data + 1))) none := by
      unfold step; rw [t4]; dsimp only; rw [m4, if_pos hlast]
    generalize hs5 : s4.goto t (.acc (.read i) (s.data + 1)) = s5 at e5
    have m5 : s5.toMem = s.toMem := by rw [← hs5]; exact m4
    have t5 : s5.th t = .acc (.read i) (s.data + 1) := by rw [← hs5]; exact th1 _ _
    have e6 : step ⟨true, true⟩ s5 t .go = .ok (s5.finish t) (some (.read i (.val v))) := by
      unfold step; rw [t5]; dsimp only; rw [m5, if_pos (by exact hcap1)]
      unfold look
      rw [m5]
      simp only [Op.index]
      rw [show s.toMem.mem (s.toMem.data + 1) i = .val v from hrel]
    refine ⟨[(t, .op (.read i)), (t, .go), (t, .go), (t, .go), (t, .go), (t, .go)], s5.finish t, by simp, by simp, ?_⟩
    simp [play, e1, e2, e3, e4, e5, e6]
  · rw [cell_open hc] at hrel
    have e4 : step ⟨true, true⟩ s3 t .go = .ok (s3.finish t) (some (.read i (.val v))) := by
      unfold step; rw [t3]; dsimp only; rw [m3, if_pos (by exact hcap)]
      unfold look
      rw [m3]
      simp only [Op.index]
      rw [show s.toMem.mem s.toMem.data i = .val v from hrel]
    refine ⟨[(t, .op (.read i)), (t, .go), (t, .go), (t, .go)], s3.finish t, by simp, by simp, ?_⟩
    simp [play, e1, e2, e3, e4]

/-- In every execution of any number of threads, if only one thread at a time changes the size of the array and never makes it smaller: the finished
operations are operations on a list, in the order in which they return; no access is outside of the storage; and every element can be read at any
time, without waiting for other threads. -/
theorem C18 (l : List Nat) (c n : Nat) (hc : l.length ≤ c) (es : List Ev) (s : St) (hr : Run ⟨true, true⟩ n (fresh l c) es s) :
    (∃ l', Atomics l es l' ∧
      ∀ t i v, t < n → s.th t = .idle → l'[i]? = some v →
        ∃ p s', (∀ x ∈ p, x.1 = t) ∧ p.length ≤ 6 ∧ play ⟨true, true⟩ s p = some ([.read i (.val v)], s')) ∧
    (∀ t ch, t < n → step ⟨true, true⟩ s t ch ≠ .bad) := by
  obtain ⟨l', h1, h2⟩ := run_inv hr l (fresh_inv l c hc n)
  refine ⟨⟨l', h1, ?_⟩, ?_⟩
  · intro t i v _ hidle hv
    exact read_returns h2 t i v hidle hv
  · intro t ch ht hb
    have := step_good h2 ht ch
    rw [hb] at this
    exact this

/-- `k` steps of thread `t`. -/
def steps (t k : Nat) : List (Nat × Choice) := List.replicate k (t, .go)

/-- Thread 0 appends 9 to `[7, 8]` of capacity 2; while it copies, having closed the first slot, thread 1 writes 5 to the first element, finds the slot
closed and copies the other one; thread 2 reads it. -/
example : (play ⟨true, true⟩ (fresh [7, 8] 2)
    ([(0, .grow (.push 9))] ++ steps 0 3 ++ [(0, .cap 5)] ++ steps 0 7 ++
     [(1, .op (.write 0 5))] ++ steps 1 12 ++ [(2, .op (.read 0))] ++ steps 2 3 ++ steps 0 9)).map (·.1) =
    some [.write 0 5, .read 0 (.val 5), .push 2 9] := by decide +kernel

end Verif.Conc
