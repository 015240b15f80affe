/-
  What holds in all states of a queue or a stack which can be reached.
-/
import Verif.Thr.Spec

namespace Verif.Thr

/-- Holds the mutex of the semaphore. -/
@[grind =] def semOf : Pc → Bool
  | .relR _ | .relC _ _ | .relU | .acq _ _ true | .acqC _ _ true _ | .acqU _ => true
  | .idle | .pushM _ | .pushI _ | .relL _ | .relB | .acq _ _ false | .acqL _ _ | .acqW _ _ _
  | .acqC _ _ false _ | .popM _ | .popT _ => false

/-- Holds the mutex of the collection. -/
@[grind =] def mtxOf : Pc → Bool
  | .pushI _ | .popT _ => true
  | .idle | .pushM _ | .relL _ | .relR _ | .relC _ _ | .relU | .relB | .acq _ _ _ | .acqL _ _
  | .acqW _ _ _ | .acqC _ _ _ _ | .acqU _ | .popM _ => false

/-- Elements which are in the collection and not in the value of the semaphore:
    some are about to be added to the value, some were taken from it. -/
@[grind =] def weight : Pc → Nat
  | .idle | .pushM _ | .pushI _ | .relU | .relB => 0
  | .relL n | .relR n | .relC n _ => n
  | .acq num c _ | .acqL num c | .acqW num c _ | .acqC num c _ _ => num - c
  | .acqU num | .popM num | .popT num => num

/-- Waits, and nothing has woken it. -/
@[grind =] def waits : Pc → Bool
  | .acqW _ _ false => true
  | .idle | .pushM _ | .pushI _ | .relL _ | .relR _ | .relC _ _ | .relU | .relB | .acq _ _ _
  | .acqL _ _ | .acqW _ _ true | .acqC _ _ _ _ | .acqU _ | .popM _ | .popT _ => false

/-- Is about to wake others. -/
@[grind =] def signals : Pc → Bool
  | .relU | .relB => true
  | .idle | .pushM _ | .pushI _ | .relL _ | .relR _ | .relC _ _ | .acq _ _ _ | .acqL _ _
  | .acqW _ _ _ | .acqC _ _ _ _ | .acqU _ | .popM _ | .popT _ => false

/-- The numbers of a thread are in their ranges. -/
def fine : Pc → Prop
  | .idle | .pushM _ | .pushI _ | .relL _ | .relR _ | .relU | .relB => True
  | .relC n old => n + old ≤ maxSem
  | .acq num c _ | .acqL num c | .acqW num c _ => 1 ≤ c ∧ c ≤ num
  | .acqC num c _ old => 1 ≤ c ∧ c ≤ num ∧ 1 ≤ old
  | .acqU _ | .popM _ | .popT _ => True

/-- The sum of weights of threads. -/
def total (l : List Nat) (pc : Nat → Pc) : Nat := (l.map fun t => weight (pc t)).sum

structure Inv (k : Kind) (n : Nat) (s : S) : Prop where
  sem : ∀ t, s.sem = some t ↔ semOf (s.pc t) = true
  mtx : ∀ t, s.mtx = some t ↔ mtxOf (s.pc t) = true
  val : s.value ≤ maxSem
  ok : ∀ t, fine (s.pc t)
  out : ∀ t, n ≤ t → s.pc t = .idle
  acc : s.size = s.value + total (List.range n) s.pc + s.failed
  len : (s.coll.length : Int) = s.front + s.size
  fr : k = .stack → s.front = 0
  wk : ∀ t, waits (s.pc t) = true → s.value ≠ 0 → ∃ u, signals (s.pc u) = true

@[grind =] theorem upd_apply {α : Type} (f : Nat → α) (k : Nat) (x : α) (j : Nat) :
    upd f k x j = if j = k then x else f j := rfl

theorem total_congr {l : List Nat} {p q : Nat → Pc} (h : ∀ u ∈ l, weight (p u) = weight (q u)) :
    total l p = total l q := by
  unfold total
  rw [List.map_congr_left h]

theorem total_upd {l : List Nat} {pc : Nat → Pc} {t : Nat} {x : Pc} (hn : l.Nodup) (ht : t ∈ l) :
    total l (upd pc t x) + weight (pc t) = total l pc + weight x := by
  induction l with
  | nil => cases ht
  | cons a l ih =>
    rw [List.nodup_cons] at hn
    by_cases e : t = a
    · subst e
      have : total l (upd pc t x) = total l pc := by
        apply total_congr
        intro u hu
        have : u ≠ t := by rintro rfl; exact hn.1 hu
        simp [upd, this]
      simp only [total, List.map_cons, List.sum_cons] at this ⊢
      rw [this]
      simp [upd]
      omega
    · have := ih hn.2 (by simpa [e] using ht)
      have ne : a ≠ t := fun h => e h.symm
      simp only [total, List.map_cons, List.sum_cons] at this ⊢
      simp only [upd, if_neg ne] at this ⊢
      omega

theorem total_mem {l : List Nat} {pc : Nat → Pc} {t : Nat} (ht : t ∈ l) : weight (pc t) ≤ total l pc := by
  induction l with
  | nil => cases ht
  | cons a l ih =>
    simp only [total, List.map_cons, List.sum_cons] at ih ⊢
    rcases List.mem_cons.1 ht with rfl | h
    · omega
    · have := ih h; omega

/-- How a thread which goes from `p` to `x` may change the holder of a mutex. -/
def Holds (o o' : Option Nat) (t : Nat) (p x : Bool) : Prop :=
  (o' = o ∧ x = p) ∨ (o = none ∧ o' = some t ∧ x = true) ∨ (p = true ∧ o' = none ∧ x = false)

theorem holds {o o' : Option Nat} {t : Nat} {f : Pc → Bool} {pc : Nat → Pc} {x : Pc}
    (h : ∀ u, o = some u ↔ f (pc u) = true) (hh : Holds o o' t (f (pc t)) (f x)) (u : Nat) :
    o' = some u ↔ f (upd pc t x u) = true := by
  have h1 := h u
  have h2 := h t
  unfold Holds at hh
  grind

theorem move {k : Kind} {n : Nat} {s : S} (h : Inv k n s) {t : Nat} (ht : t < n) (s' : S) (x : Pc)
    (hpc : s'.pc = upd s.pc t x) (hs : Holds s.sem s'.sem t (semOf (s.pc t)) (semOf x))
    (hm : Holds s.mtx s'.mtx t (mtxOf (s.pc t)) (mtxOf x)) (hv : s'.value ≤ maxSem) (hf : fine x)
    (ha : s'.size + weight (s.pc t) + s.value + s.failed = s.size + weight x + s'.value + s'.failed)
    (hl : (s'.coll.length : Int) = s'.front + s'.size) (hr : k = .stack → s'.front = 0)
    (w1 : s'.value ≠ 0 → s.value ≠ 0 ∨ signals x = true)
    (w2 : waits x = true → s'.value = 0)
    (w3 : signals (s.pc t) = true → signals x = true ∨ ∀ u, waits (s.pc u) = false) : Inv k n s' := by
  have hu := total_upd (x := x) (pc := s.pc) List.nodup_range (List.mem_range.2 ht)
  have ac := h.acc
  refine ⟨?_, ?_, hv, ?_, ?_, ?_, hl, hr, ?_⟩
  · rw [hpc]; exact holds h.sem hs
  · rw [hpc]; exact holds h.mtx hm
  · intro u
    rw [hpc, upd_apply]
    split
    · exact hf
    · exact h.ok u
  · intro u hu
    rw [hpc, upd_apply, if_neg (by omega)]
    exact h.out u hu
  · rw [hpc]; omega
  · intro u
    have a := h.wk u
    rw [hpc]
    by_cases e : u = t
    · subst e
      rw [upd_apply, if_pos rfl]
      intro h1 h2
      exact absurd (w2 h1) h2
    · rw [upd_apply, if_neg e]
      intro h1 h2
      by_cases e2 : signals x = true
      · exact ⟨t, by rw [upd_apply, if_pos rfl]; exact e2⟩
      · have h3 := (w1 h2).resolve_right e2
        obtain ⟨v, hv⟩ := a h1 h3
        by_cases e3 : v = t
        · subst e3
          have := (w3 hv).resolve_left e2 u
          rw [h1] at this; cases this
        · exact ⟨v, by rw [upd_apply, if_neg e3]; exact hv⟩

theorem wake_weight (x : Pc) : weight (wake x) = weight x := by cases x <;> rfl
theorem wake_sem (x : Pc) : semOf (wake x) = semOf x := by cases x <;> rfl
theorem wake_mtx (x : Pc) : mtxOf (wake x) = mtxOf x := by cases x <;> rfl
theorem wake_signals (x : Pc) : signals (wake x) = signals x := by cases x <;> rfl
theorem wake_waits (x : Pc) : waits (wake x) = false := by
  cases x
  case acqW => rfl
  case acq a b c => cases c <;> rfl
  all_goals rfl
theorem wake_fine (x : Pc) (h : fine x) : fine (wake x) := by cases x <;> exact h

theorem woken {k : Kind} {n : Nat} {s : S} (h : Inv k n s) :
    Inv k n { s with pc := fun u => wake (s.pc u) } := by
  refine ⟨?_, ?_, h.val, ?_, ?_, ?_, h.len, h.fr, ?_⟩
  · intro u; show _ ↔ semOf (wake _) = true; rw [wake_sem]; exact h.sem u
  · intro u; show _ ↔ mtxOf (wake _) = true; rw [wake_mtx]; exact h.mtx u
  · intro u; exact wake_fine _ (h.ok u)
  · intro u hu; show wake _ = _; rw [h.out u hu]; rfl
  · show s.size = s.value + total _ _ + s.failed
    rw [total_congr (q := s.pc) (fun u _ => wake_weight _)]
    exact h.acc
  · intro u hu
    have hu : waits (wake (s.pc u)) = true := hu
    rw [wake_waits] at hu; cases hu

/-- What a step leads to. -/
def Good (k : Kind) (n : Nat) : Res → Prop
  | .no => True
  | .fails => False
  | .ok s _ => Inv k n s

theorem lockSem_good {k : Kind} {n : Nat} {s : S} {t : Nat} (h : Inv k n s) (ht : t < n) (x : Pc)
    (h1 : semOf x = true) (h2 : mtxOf (s.pc t) = mtxOf x) (h3 : weight x = weight (s.pc t)) (h4 : fine x)
    (h5 : waits x = false) (h6 : signals (s.pc t) = false) : Good k n (lockSem t x s) := by
  unfold lockSem
  cases e : s.sem with
  | some _ => trivial
  | none =>
    refine move h ht _ x rfl (.inr (.inl ⟨e, rfl, h1⟩)) (.inl ⟨rfl, h2.symm⟩) h.val h4 ?_ h.len h.fr
      (fun h => .inl h) (by rw [h5]; simp) (by rw [h6]; simp)
    show s.size + weight (s.pc t) + s.value + s.failed = s.size + weight x + s.value + s.failed
    omega

theorem lockMtx_good {k : Kind} {n : Nat} {s : S} {t : Nat} (h : Inv k n s) (ht : t < n) (x : Pc)
    (h1 : mtxOf x = true) (h2 : semOf (s.pc t) = semOf x) (h3 : weight x = weight (s.pc t)) (h4 : fine x)
    (h5 : waits x = false) (h6 : signals (s.pc t) = false) : Good k n (lockMtx t x s) := by
  unfold lockMtx
  cases e : s.mtx with
  | some _ => trivial
  | none =>
    refine move h ht _ x rfl (.inl ⟨rfl, h2.symm⟩) (.inr (.inl ⟨e, rfl, h1⟩)) h.val h4 ?_ h.len h.fr
      (fun h => .inl h) (by rw [h5]; simp) (by rw [h6]; simp)
    show s.size + weight (s.pc t) + s.value + s.failed = s.size + weight x + s.value + s.failed
    omega

theorem goto_good {k : Kind} {n : Nat} {s : S} {t : Nat} (h : Inv k n s) (ht : t < n) (x : Pc)
    (h1 : semOf (s.pc t) = semOf x) (h2 : mtxOf (s.pc t) = mtxOf x) (h3 : weight x = weight (s.pc t))
    (h4 : fine x) (h5 : waits x = false) (h6 : signals (s.pc t) = false) : Good k n (goto t x s) := by
  refine move h ht _ x rfl (.inl ⟨rfl, h1.symm⟩) (.inl ⟨rfl, h2.symm⟩) h.val h4 ?_ h.len h.fr
    (fun h => .inl h) (by rw [h5]; simp) (by rw [h6]; simp)
  show s.size + weight (s.pc t) + s.value + s.failed = s.size + weight x + s.value + s.failed
  omega

theorem unlockSem_good {k : Kind} {n : Nat} {s : S} {t : Nat} (h : Inv k n s) (ht : t < n) (x : Pc)
    (h1 : semOf (s.pc t) = true) (h1' : semOf x = false) (h2 : mtxOf (s.pc t) = mtxOf x)
    (h3 : weight x = weight (s.pc t)) (h4 : fine x) (h5 : waits x = true → s.value = 0)
    (h6 : signals (s.pc t) = true → signals x = true) : Good k n (unlockSem t x s) := by
  refine move h ht _ x rfl (.inr (.inr ⟨h1, rfl, h1'⟩)) (.inl ⟨rfl, h2.symm⟩) h.val h4 ?_ h.len h.fr
    (fun h => .inl h) h5 (fun e => .inl (h6 e))
  show s.size + weight (s.pc t) + s.value + s.failed = s.size + weight x + s.value + s.failed
  omega

theorem pushBody_good {k : Kind} {n : Nat} {s : S} {t : Nat} {l : List Nat} (h : Inv k n s) (ht : t < n)
    (hp : s.pc t = .pushI l) : Good k n (pushBody t l s) := by
  have hl := h.len
  refine move h ht _ (.relL l.length) rfl (.inl ⟨rfl, by rw [hp]; rfl⟩) (.inr (.inr ⟨by rw [hp]; rfl, rfl, rfl⟩))
    h.val trivial ?_ ?_ h.fr (fun h => .inl h) (by simp [waits]) (by rw [hp]; simp [signals])
  · show s.size + l.length + weight (s.pc t) + s.value + s.failed = s.size + l.length + s.value + s.failed
    rw [hp]; simp [weight]
  · show ((s.coll ++ l).length : Int) = s.front + (s.size + l.length)
    rw [List.length_append]; omega

theorem releaseRead_good {k : Kind} {n : Nat} {s : S} {t m : Nat} (h : Inv k n s) (ht : t < n)
    (hp : s.pc t = .relR m) : Good k n (releaseRead t m s) := by
  have hv := h.val
  unfold releaseRead
  split
  · refine move h ht _ .idle rfl (.inr (.inr ⟨by rw [hp]; rfl, rfl, rfl⟩)) (.inl ⟨rfl, by rw [hp]; rfl⟩)
      h.val trivial ?_ h.len h.fr (fun h => .inl h) (by simp [waits]) (by rw [hp]; simp [signals])
    show s.size + weight (s.pc t) + s.value + s.failed = s.size + 0 + s.value + ((s.failed + m : Nat) : Int)
    rw [hp]; simp only [weight]; omega
  · exact goto_good h ht _ (by rw [hp]; rfl) (by rw [hp]; rfl) (by rw [hp]; rfl) (by simp only [fine]; omega)
      rfl (by rw [hp]; rfl)

theorem releaseCas_good {k : Kind} {n : Nat} {s : S} {t m old : Nat} (h : Inv k n s) (ht : t < n)
    (hp : s.pc t = .relC m old) : Good k n (releaseCas t m old s) := by
  have hf := h.ok t
  rw [hp] at hf
  unfold releaseCas
  split
  · rename_i e
    refine move h ht _ .relU rfl (.inl ⟨rfl, by rw [hp]; rfl⟩) (.inl ⟨rfl, by rw [hp]; rfl⟩)
      ?_ trivial ?_ h.len h.fr (fun h => .inr rfl) (by simp [waits]) (by simp [signals])
    · show old + m ≤ maxSem
      simp only [fine] at hf; omega
    · show s.size + weight (s.pc t) + s.value + s.failed = s.size + 0 + ((old + m : Nat) : Int) + s.failed
      rw [hp]; simp only [weight]; omega
  · exact goto_good h ht _ (by rw [hp]; rfl) (by rw [hp]; rfl) (by rw [hp]; rfl) trivial rfl (by rw [hp]; rfl)

theorem broadcast_good {k : Kind} {n : Nat} {s : S} {t : Nat} (h : Inv k n s) (ht : t < n)
    (hp : s.pc t = .relB) : Good k n (broadcast t s) := by
  refine move (woken h) ht _ .idle rfl (.inl ⟨rfl, ?_⟩) (.inl ⟨rfl, ?_⟩) h.val trivial ?_ h.len h.fr
    (fun h => .inl h) (by simp [waits]) (fun _ => .inr fun u => wake_waits _)
  · show _ = semOf (wake _); rw [hp]; rfl
  · show _ = mtxOf (wake _); rw [hp]; rfl
  · show s.size + weight (wake (s.pc t)) + s.value + s.failed = s.size + 0 + s.value + s.failed
    rw [hp]; simp [weight, wake]

theorem acquireRead_good {k : Kind} {n : Nat} {s : S} {t num c : Nat} {b : Bool} (h : Inv k n s) (ht : t < n)
    (hp : s.pc t = .acq num c b) : Good k n (acquireRead t num c b s) := by
  have hf := h.ok t
  rw [hp] at hf
  simp only [fine] at hf
  unfold acquireRead
  split
  · rename_i e
    have e0 : s.value = 0 := by unfold decValue at e; split at e <;> omega
    cases b
    · exact goto_good h ht _ (by rw [hp]; rfl) (by rw [hp]; rfl) (by rw [hp]; rfl) hf rfl (by rw [hp]; rfl)
    · exact unlockSem_good h ht _ (by rw [hp]; rfl) rfl (by rw [hp]; rfl) (by rw [hp]; rfl) hf (fun _ => e0)
        (by rw [hp]; simp [signals])
  · rename_i e
    have e0 : 1 ≤ s.value := by unfold decValue at e; split at e <;> omega
    refine goto_good h ht _ ?_ (by rw [hp]; rfl) (by rw [hp]; rfl) ⟨hf.1, hf.2, e0⟩ rfl (by rw [hp]; rfl)
    rw [hp]; cases b <;> rfl

theorem acquireCas_good {k : Kind} {n : Nat} {s : S} {t num c old : Nat} {b : Bool} (h : Inv k n s) (ht : t < n)
    (hp : s.pc t = .acqC num c b old) : Good k n (acquireCas t num c b old s) := by
  have hf := h.ok t
  have hv := h.val
  rw [hp] at hf
  simp only [fine] at hf
  have hd : decValue old c ≤ c ∧ decValue old c ≤ old := by unfold decValue; split <;> omega
  unfold acquireCas
  split
  · rename_i e
    have q : semOf (acquired num (c - decValue old c) b) = b ∧ mtxOf (acquired num (c - decValue old c) b) = false
        ∧ waits (acquired num (c - decValue old c) b) = false
        ∧ weight (acquired num (c - decValue old c) b) = num - (c - decValue old c)
        ∧ fine (acquired num (c - decValue old c) b) := by
      unfold acquired
      split
      · rename_i e; cases b <;> simp [semOf, mtxOf, waits, weight, fine, e]
      · cases b <;> simp [semOf, mtxOf, waits, weight, fine] <;> omega
    refine move h ht _ _ rfl (.inl ⟨rfl, ?_⟩) (.inl ⟨rfl, ?_⟩) ?_ q.2.2.2.2 ?_ h.len h.fr
      (fun h => .inl ?_) (by rw [q.2.2.1]; simp) (by rw [hp]; simp [signals])
    · rw [q.1, hp]; cases b <;> rfl
    · rw [q.2.1, hp]; rfl
    · show old - _ ≤ maxSem; omega
    · show s.size + weight (s.pc t) + s.value + s.failed =
        s.size + weight (acquired num (c - decValue old c) b) + ((old - decValue old c : Nat) : Int) + s.failed
      rw [q.2.2.2.1, hp]; simp only [weight]; omega
    · intro e0; exact h (by show old - _ = 0; omega)
  · refine goto_good h ht _ ?_ (by rw [hp]; rfl) (by rw [hp]; rfl) ⟨hf.1, hf.2.1⟩ rfl (by rw [hp]; rfl)
    rw [hp]; cases b <;> rfl

theorem enough {k : Kind} {n : Nat} {s : S} {t num : Nat} (h : Inv k n s) (ht : t < n)
    (hp : s.pc t = .popT num) : (num : Int) ≤ s.size := by
  have := total_mem (pc := s.pc) (List.mem_range.2 ht)
  rw [hp] at this
  simp only [weight] at this
  have := h.acc
  omega

theorem popBody_good {k : Kind} {n : Nat} {s : S} {t num : Nat} (h : Inv k n s) (ht : t < n)
    (hp : s.pc t = .popT num) : Good k n (popBody k t num s) := by
  have he := enough h ht hp
  have hl := h.len
  have key : ∀ (coll : List Nat) (front : Nat), (coll.length : Int) = front + (s.size - num) →
      (k = .stack → front = 0) → Inv k n { s with
        coll := coll
        size := s.size - num
        front := front
        mtx := none
        pc := upd s.pc t .idle } := by
    intro coll front h1 h2
    refine move h ht _ .idle rfl (.inl ⟨rfl, by rw [hp]; rfl⟩) (.inr (.inr ⟨by rw [hp]; rfl, rfl, rfl⟩))
      h.val trivial ?_ h1 h2 (fun h => .inl h) (by simp [waits]) (by rw [hp]; simp [signals])
    show s.size - num + weight (s.pc t) + s.value + s.failed = s.size + 0 + s.value + s.failed
    rw [hp]; simp only [weight]; omega
  cases k with
  | queue =>
    show Inv _ _ _
    simp only [queuePop]
    split
    · refine key (s.coll.drop (s.front + num)) 0 ?_ (fun e => rfl)
      rw [List.length_drop]; omega
    · exact key s.coll (s.front + num) (by omega) (by simp)
  | stack =>
    have h0 := h.fr rfl
    simp only [popBody, stackPop]
    rw [if_neg (by omega)]
    have := key (s.coll.take (s.coll.length - num)) s.front (by rw [List.length_take]; omega) h.fr
    exact this

theorem step_good {k : Kind} {n : Nat} {s : S} {t : Nat} {a : Act} (h : Inv k n s) (ht : t < n) :
    Good k n (step k t a s) := by
  have hf := h.ok t
  unfold step
  split <;> rename_i hp <;> (try rw [hp] at hf) <;> (try simp only [fine] at hf)
  · split
    · trivial
    · exact goto_good h ht _ (by rw [hp]; rfl) (by rw [hp]; rfl) (by rw [hp]; rfl) trivial rfl (by rw [hp]; rfl)
  · split
    · rename_i e
      exact goto_good h ht _ (by rw [hp]; rfl) (by rw [hp]; rfl) (by rw [hp]; simp [weight]) ⟨e.1, Nat.le_refl _⟩
        rfl (by rw [hp]; rfl)
    · trivial
  · exact lockMtx_good h ht _ rfl (by rw [hp]; rfl) (by rw [hp]; rfl) trivial rfl (by rw [hp]; rfl)
  · exact pushBody_good h ht hp
  · exact lockSem_good h ht _ rfl (by rw [hp]; rfl) (by rw [hp]; rfl) trivial rfl (by rw [hp]; rfl)
  · exact releaseRead_good h ht hp
  · exact releaseCas_good h ht hp
  · exact goto_good h ht _ (by rw [hp]; rfl) (by rw [hp]; rfl) (by rw [hp]; rfl) trivial rfl (by rw [hp]; rfl)
  · exact unlockSem_good h ht _ (by rw [hp]; rfl) rfl (by rw [hp]; rfl) (by rw [hp]; rfl) trivial
      (by simp [waits]) (by simp [signals])
  · exact broadcast_good h ht hp
  · exact acquireRead_good h ht hp
  · exact lockSem_good h ht _ rfl (by rw [hp]; rfl) (by rw [hp]; rfl) hf rfl (by rw [hp]; rfl)
  · exact lockSem_good h ht _ rfl (by rw [hp]; rfl) (by rw [hp]; rfl) hf rfl (by rw [hp]; rfl)
  · exact lockSem_good h ht _ rfl (by rw [hp]; rfl) (by rw [hp]; rfl) hf rfl (by rw [hp]; rfl)
  · exact acquireCas_good h ht hp
  · rename_i b _
    refine goto_good h ht _ ?_ (by rw [hp]; rfl) (by rw [hp]; rfl) ⟨hf.1, hf.2.1⟩ rfl (by rw [hp]; rfl)
    rw [hp]; cases b <;> rfl
  · exact unlockSem_good h ht _ (by rw [hp]; rfl) rfl (by rw [hp]; rfl) (by rw [hp]; rfl) trivial
      (by simp [waits]) (by rw [hp]; simp [signals])
  · exact lockMtx_good h ht _ rfl (by rw [hp]; rfl) (by rw [hp]; rfl) trivial rfl (by rw [hp]; rfl)
  · exact popBody_good h ht hp
  · trivial

theorem init_inv (k : Kind) (n : Nat) : Inv k n .init := by
  refine ⟨?_, ?_, ?_, ?_, ?_, ?_, ?_, ?_, ?_⟩
  · intro t; simp [S.init, semOf]
  · intro t; simp [S.init, mtxOf]
  · exact Nat.zero_le _
  · intro t; trivial
  · intro t _; rfl
  · have : total (List.range n) S.init.pc = 0 := by
      generalize List.range n = l
      induction l with
      | nil => rfl
      | cons a l ih => simp only [total, List.map_cons, List.sum_cons] at ih ⊢; rw [ih]; rfl
    rw [this]; rfl
  · rfl
  · intro _; rfl
  · intro t h; simp [S.init, waits] at h

theorem reach_inv {k : Kind} {n : Nat} {s : S} {h : List Event} (r : Reach k n s h) : Inv k n s := by
  induction r with
  | init => exact init_inv k n
  | step t a _ hs ih =>
    unfold next at hs
    split at hs
    · rename_i ht
      have := step_good (a := a) ih ht
      rw [hs] at this
      exact this
    · cases hs

/-- The collection changes in `with this.mutex` only. -/
theorem step_same {k : Kind} {s s' : S} {t : Nat} {a : Act} {r : Option (List Nat)}
    (hs : step k t a s = .ok s' r) (h1 : ∀ l, s.pc t ≠ .pushI l) (h2 : ∀ m, s.pc t ≠ .popT m) :
    s'.coll = s.coll ∧ s'.front = s.front ∧ r = none := by
  unfold step at hs
  split at hs <;> rename_i hp
  case h_4 => exact absurd hp (h1 _)
  case h_19 => exact absurd hp (h2 _)
  all_goals
    try simp only [goto, lockMtx, lockSem, unlockSem, releaseRead, releaseCas, broadcast, acquireRead, acquireCas] at hs
    repeat' split at hs
    all_goals first
      | (injection hs with h1 h2; subst h1; subst h2; exact ⟨rfl, rfl, rfl⟩)
      | (cases hs; done)

theorem step_go {k : Kind} {s s' : S} {t : Nat} {a : Act} {r : Option (List Nat)}
    (hs : step k t a s = .ok s' r) (h1 : (∃ l, s.pc t = .pushI l) ∨ ∃ m, s.pc t = .popT m) : a = .go := by
  rcases h1 with ⟨l, e⟩ | ⟨m, e⟩ <;> (unfold step at hs; rw [e] at hs; cases a <;> first | rfl | cases hs)

theorem reach_behaves {k : Kind} {n : Nat} {s : S} {h : List Event} (r : Reach k n s h) :
    Behaves k h (s.coll.drop s.front) := by
  induction r with
  | init => exact .empty
  | @step s s' h r t a hr hs ih =>
    have hi := reach_inv hr
    unfold next at hs
    split at hs
    case isFalse => cases hs
    rename_i ht
    have hl := hi.len
    by_cases e1 : ∃ l, s.pc t = .pushI l
    · have ea := step_go hs (.inl e1)
      obtain ⟨l, e1⟩ := e1
      subst ea
      rw [if_pos rfl]
      unfold step at hs
      rw [e1] at hs
      simp only [pushBody] at hs
      injection hs with h1 h2
      subst h1; subst h2
      simp only [event, e1]
      have hsz : 0 ≤ s.size := by have := hi.acc; omega
      rw [show (s.coll ++ l).drop s.front = s.coll.drop s.front ++ l from
        List.drop_append_of_le_length (by omega)]
      exact ih.push
    · by_cases e2 : ∃ m, s.pc t = .popT m
      · have ea := step_go hs (.inr e2)
        obtain ⟨m, e2⟩ := e2
        subst ea
        rw [if_pos rfl]
        have he := enough hi ht e2
        unfold step at hs
        rw [e2] at hs
        simp only [popBody] at hs
        cases k with
        | queue =>
          have hd : ((s.coll.take (s.front + m)).drop s.front).length = m := by
            rw [List.length_drop, List.length_take]; omega
          have hq : s.coll.drop s.front =
              (s.coll.take (s.front + m)).drop s.front ++ s.coll.drop (s.front + m) := by
            conv => lhs; rw [← List.take_append_drop (s.front + m) s.coll]
            rw [List.drop_append_of_le_length (by rw [List.length_take]; omega)]
          have : Behaves .queue (h ++ [.pop m ((s.coll.take (s.front + m)).drop s.front)])
              (s.coll.drop (s.front + m)) := by
            rw [hq] at ih
            have := ih.queue
            rwa [hd] at this
          simp only [queuePop] at hs
          split at hs
          · injection hs with h1 h2
            subst h1; subst h2
            simp only [event, e2]
            exact this
          · injection hs with h1 h2
            subst h1; subst h2
            simp only [event, e2]
            exact this
        | stack =>
          have hf := hi.fr rfl
          have hd : (s.coll.drop (s.coll.length - m)).length = m := by
            rw [List.length_drop]; omega
          simp only [stackPop] at hs
          rw [if_neg (by omega)] at hs
          injection hs with h1 h2
          subst h1; subst h2
          simp only [event, e2]
          rw [hf] at ih ⊢
          rw [show s.coll.drop 0 = s.coll.take (s.coll.length - m) ++ s.coll.drop (s.coll.length - m) by simp] at ih
          have := ih.stack
          rw [hd] at this
          exact this
      · obtain ⟨h1, h2, h3⟩ := step_same hs (by simpa using e1) (by simpa using e2)
        rw [h1, h2]
        have : (if a = .go then event t s r else []) = [] := by
          subst h3
          split
          · unfold event
            split
            · rename_i l e; exact absurd ⟨_, e⟩ e1
            · rename_i e; cases e
            · rfl
          · rfl
        rw [this, List.append_nil]
        exact ih

theorem still {k : Kind} {n : Nat} {s : S} (i : Inv k n s) (st : ∀ t, ∀ s' r, next k n t .go s ≠ .ok s' r) (t : Nat) :
    s.pc t = .idle ∨ ((∃ num c, s.pc t = .acqW num c false ∧ 1 ≤ c ∧ c ≤ num) ∧ s.value = 0) := by
  have inside : ∀ u, s.pc u ≠ .idle → u < n := by
    intro u hu
    rcases Nat.lt_or_ge u n with h | h
    · exact h
    · exact absurd (i.out u h) hu
  have st' : ∀ u, s.pc u ≠ .idle → ¬ ∃ s' r, step k u .go s = .ok s' r := by
    intro u hu ⟨s', r, e⟩
    apply st u s' r
    unfold next
    rw [if_pos (inside u hu)]
    exact e
  have nosem : s.sem = none := by
    cases e : s.sem with
    | none => rfl
    | some u =>
      have o := (i.sem u).1 e
      cases p : s.pc u
      all_goals (try rw [p] at o)
      case relR m =>
        refine absurd ?_ (st' u (by rw [p]; simp))
        simp only [step, p, releaseRead, goto]
        split <;> exact ⟨_, _, rfl⟩
      case relC m old =>
        refine absurd ?_ (st' u (by rw [p]; simp))
        simp only [step, p, releaseCas, goto]
        split <;> exact ⟨_, _, rfl⟩
      case relU => exact absurd ⟨_, _, by simp only [step, p, unlockSem]; rfl⟩ (st' u (by rw [p]; simp))
      case acq num c b =>
        refine absurd ?_ (st' u (by rw [p]; simp))
        simp only [step, p, acquireRead, goto, unlockSem]
        repeat' split
        all_goals exact ⟨_, _, rfl⟩
      case acqC num c b old =>
        refine absurd ?_ (st' u (by rw [p]; simp))
        simp only [step, p, acquireCas, goto]
        split <;> exact ⟨_, _, rfl⟩
      case acqU => exact absurd ⟨_, _, by simp only [step, p, unlockSem]; rfl⟩ (st' u (by rw [p]; simp))
      all_goals simp [semOf] at o
  have nomtx : s.mtx = none := by
    cases e : s.mtx with
    | none => rfl
    | some u =>
      have o := (i.mtx u).1 e
      cases p : s.pc u
      all_goals (try rw [p] at o)
      case pushI l => exact absurd ⟨_, _, by simp only [step, p, pushBody]; rfl⟩ (st' u (by rw [p]; simp))
      case popT m =>
        have he := enough i (inside u (by rw [p]; simp)) p
        have hl := i.len
        cases k with
        | queue => exact absurd ⟨_, _, by simp only [step, p, popBody]; rfl⟩ (st' u (by rw [p]; simp))
        | stack =>
          refine absurd ?_ (st' u (by rw [p]; simp))
          simp only [step, p, popBody, stackPop]
          rw [if_neg (by have := i.fr rfl; omega)]
          exact ⟨_, _, rfl⟩
      all_goals simp [mtxOf] at o
  have nosig : ∀ u, signals (s.pc u) = false := by
    intro u
    cases p : s.pc u
    case relU => exact absurd ⟨_, _, by simp only [step, p, unlockSem]; rfl⟩ (st' u (by rw [p]; simp))
    case relB => exact absurd ⟨_, _, by simp only [step, p, broadcast]; rfl⟩ (st' u (by rw [p]; simp))
    all_goals rfl
  by_cases hi : s.pc t = .idle
  · exact .inl hi
  right
  have sem' : ∀ x, s.pc t ≠ .idle → step k t .go s = lockSem t x s → False := by
    intro x h1 h2
    apply st' t h1
    refine ⟨{ s with sem := some t, pc := upd s.pc t x }, none, ?_⟩
    rw [h2]
    unfold lockSem
    rw [nosem]
  have mtx' : ∀ x, s.pc t ≠ .idle → step k t .go s = lockMtx t x s → False := by
    intro x h1 h2
    apply st' t h1
    refine ⟨{ s with mtx := some t, pc := upd s.pc t x }, none, ?_⟩
    rw [h2]
    unfold lockMtx
    rw [nomtx]
  have ms := i.sem t
  rw [nosem] at ms
  have mm := i.mtx t
  rw [nomtx] at mm
  have sg := nosig t
  cases p : s.pc t
  all_goals (rw [p] at ms mm sg hi)
  case idle => exact absurd rfl hi
  case pushM l => exact (mtx' (.pushI l) (by rw [p]; simp) (by simp only [step, p])).elim
  case pushI l => simp [mtxOf] at mm
  case relL m => exact (sem' (.relR m) (by rw [p]; simp) (by simp only [step, p])).elim
  case relR m => simp [semOf] at ms
  case relC m => simp [semOf] at ms
  case relU => simp [signals] at sg
  case relB => simp [signals] at sg
  case acq num c b =>
    refine absurd ?_ (st' t (by rw [p]; simp))
    simp only [step, p, acquireRead, goto, unlockSem]
    repeat' split
    all_goals exact ⟨_, _, rfl⟩
  case acqL num c => exact (sem' (.acq num c true) (by rw [p]; simp) (by simp only [step, p])).elim
  case acqW num c b =>
    cases b with
    | true => exact (sem' (.acq num c true) (by rw [p]; simp) (by simp only [step, p])).elim
    | false =>
      have f := i.ok t
      rw [p] at f
      refine ⟨⟨num, c, rfl, f.1, f.2⟩, ?_⟩
      have w := i.wk t (by rw [p]; rfl)
      cases e : s.value with
      | zero => rfl
      | succ m =>
        obtain ⟨u, hu⟩ := w (by rw [e]; simp)
        rw [nosig u] at hu
        cases hu
  case acqC num c b old =>
    refine absurd ?_ (st' t (by rw [p]; simp))
    simp only [step, p, acquireCas, goto]
    split <;> exact ⟨_, _, rfl⟩
  case acqU => simp [semOf] at ms
  case popM m => exact (mtx' (.popT m) (by rw [p]; simp) (by simp only [step, p])).elim
  case popT => simp [mtxOf] at mm

theorem pushed_append (a b : List Event) : pushed (a ++ b) = pushed a ++ pushed b := by
  induction a with
  | nil => rfl
  | cons e a ih => cases e <;> simp [pushed, ih]

theorem popped_append (a b : List Event) : popped (a ++ b) = popped a ++ popped b := by
  induction a with
  | nil => rfl
  | cons e a ih => cases e <;> simp [popped, ih]

end Verif.Thr
