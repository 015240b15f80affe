import Verif.Conc.ObjectGood

/-
C24: while several threads read, write and delete properties of one object and its table is moved to other tables, in every interleaving the results are
those of operations which happen at once. This holds if a thread which copies a table never reads the hash of a key which was not written yet
(`C24_partial`); it is false for the code, which does not wait for it (`C24_violated`).
-/
namespace Verif.PropTab
open Verif.Conc (upd)

/-- Runs a schedule; there is no result if a step is impossible or bad. -/
def play (r : Rules) (s : St) : List (Nat × Choice) → Option (List Ev × St)
  | [] => some ([], s)
  | (t, ch) :: p =>
    match step r s t ch with
    | .ok s' none => play r s' p
    | .ok s' (some e) => (play r s' p).map (fun x => (e :: x.1, x.2))
    | _ => none

theorem play_run (r : Rules) (n : Nat) (p : List (Nat × Choice)) (s s' : St) (es : List Ev) (hp : ∀ x ∈ p, x.1 < n) (h : play r s p = some (es, s')) :
    Run r n s es s' := by
  induction p generalizing s es with
  | nil =>
    simp only [play, Option.some.injEq, Prod.mk.injEq] at h
    rw [← h.1, ← h.2]; exact .nil s
  | cons x p ih =>
    obtain ⟨t, ch⟩ := x
    have ht : t < n := hp (t, ch) (by simp)
    simp only [play] at h
    split at h
    · next s1 hs => exact .quiet _ _ _ _ t ch ht hs (ih s1 es (fun x hx => hp x (by simp [hx])) h)
    · next s1 e hs =>
      simp only [Option.map_eq_some_iff] at h
      obtain ⟨⟨es1, s2⟩, h1, h2⟩ := h
      simp only [Prod.mk.injEq] at h2
      rw [← h2.1]
      rw [h2.2] at h1
      exact .event _ _ _ _ _ t ch ht hs (ih s1 es1 (fun x hx => hp x (by simp [hx])) h1)
    · simp at h

theorem run_inv {r : Rules} (hw : r.wait = true) {n : Nat} {s s' : St} {es : List Ev} (hr : Run r n s es s') :
    ∀ a g, Inv r n s a g → ∃ a' g', Atomics a es a' ∧ Inv r n s' a' g' := by
  induction hr with
  | nil s => intro a g h; exact ⟨a, g, .nil a, h⟩
  | quiet s s' s'' es t ch ht hs _ ih =>
    intro a g h
    have := step_good h hw ht ch
    rw [hs] at this
    obtain ⟨g1, h1⟩ := this
    exact ih a g1 h1
  | event s s' s'' e es t ch ht hs _ ih =>
    intro a g h
    have := step_good h hw ht ch
    rw [hs] at this
    obtain ⟨a1, g1, h1, h2⟩ := this
    obtain ⟨a2, g2, h3, h4⟩ := ih a1 g1 h2
    exact ⟨a2, g2, .cons _ _ _ _ _ h1 h3, h4⟩

/-- In every execution of any number of threads every operation looks as if it happened at one moment between its beginning and its end, and no assertion
fails. -/
def C24_full : Prop :=
  ∀ (r : Rules) (n m : Nat) (es : List Ev) (s : St), 0 < m → Run r n (fresh m) es s →
    (∃ a, Atomics Abs.empty es a) ∧ ∀ t ch, t < n → step r s t ch ≠ .bad

/-- Missing: executions where a thread which copies a table reads the hash of a key before the thread which added the key has written it. -/
theorem C24_partial (r : Rules) (hw : r.wait = true) (n m : Nat) (es : List Ev) (s : St) (hm : 0 < m) (hr : Run r n (fresh m) es s) :
    (∃ a, Atomics Abs.empty es a) ∧ ∀ t ch, t < n → step r s t ch ≠ .bad := by
  obtain ⟨a, g, h1, h2⟩ := run_inv hw hr _ _ (fresh_inv r n hm)
  refine ⟨⟨a, h1⟩, ?_⟩
  intro t ch ht hb
  have := step_good h2 hw ht ch
  rw [hb] at this
  exact this

/-- `k` steps of thread `t`. -/
def steps (t k : Nat) : List (Nat × Choice) := List.replicate k (t, .go)

/-- Thread 0 begins to write property 1 and is interrupted after it has added the key, before it writes the hash. Thread 1 writes the property, moves the
table, and reads the property. -/
def early : List (Nat × Choice) :=
  [(0, .op (.set 1 10))] ++ steps 0 2 ++
  [(1, .op (.set 1 20))] ++ steps 1 4 ++ [(1, .move), (1, .cap 8)] ++ steps 1 19 ++
  [(1, .op (.get 1))] ++ steps 1 2

theorem early_events : (play ⟨id, false⟩ (fresh 4) early).map (·.1) =
    some [.begin 0 (.set 1 10), .begin 1 (.set 1 20), .wrote 1, .begin 1 (.get 1), .absent 1] := by decide +kernel

/-- Thread 1 has written 20, nothing was deleted, and then it does not find the property. -/
theorem C24_violated : ∃ s, Run ⟨id, false⟩ 2 (fresh 4) [.begin 0 (.set 1 10), .begin 1 (.set 1 20), .wrote 1, .begin 1 (.get 1), .absent 1] s := by
  have h := early_events
  simp only [Option.map_eq_some_iff] at h
  obtain ⟨⟨es, s⟩, h1, h2⟩ := h
  refine ⟨s, play_run _ 2 early _ s _ ?_ (by rw [h1]; exact congrArg (fun x => some (x, s)) h2)⟩
  decide

/-- The full statement is false. -/
theorem C24_full_false : ¬ C24_full := by
  intro h
  obtain ⟨s, hs⟩ := C24_violated
  obtain ⟨⟨a, ha⟩, _⟩ := h ⟨id, false⟩ 2 4 _ s (by decide) hs
  cases ha with
  | cons _ a1 _ _ _ e1 r1 =>
  cases e1
  cases r1 with
  | cons _ a2 _ _ _ e2 r2 =>
  cases e2
  cases r2 with
  | cons _ a3 _ _ _ e3 r3 =>
  cases e3 with
  | del _ k ho => simp [Abs.start] at ho
  | set _ k v ho =>
  simp [Abs.start] at ho
  obtain ⟨rfl, rfl⟩ := ho
  cases r3 with
  | cons _ a4 _ _ _ e4 r4 =>
  cases e4
  cases r4 with
  | cons _ a5 _ _ _ e5 r5 =>
  cases e5 with
  | absentGet _ k ho hg => simp [Abs.start, Abs.write, Op.key] at hg
  | absentDel _ k ho hg => simp [Abs.start] at ho

/-! What this means for one property. -/

/-- The operation which thread `w` has begun last. -/
def lastOp (es : List Ev) (w : Nat) : Op :=
  es.foldl (fun o e => match e with
    | .begin t o' => if t = w then o' else o
    | _ => o) (.get 0)

theorem atomics_append {a a' : Abs} {es es' : List Ev} (h : Atomics a (es ++ es') a') : ∃ b, Atomics a es b ∧ Atomics b es' a' := by
  induction es generalizing a with
  | nil => exact ⟨a, .nil a, h⟩
  | cons e es ih =>
    cases h with
    | cons _ a1 _ _ _ h1 h2 =>
      obtain ⟨b, h3, h4⟩ := ih h2
      exact ⟨b, .cons _ _ _ _ _ h1 h3, h4⟩

theorem atomics_trans {x y z : Abs} {l l' : List Ev} (h : Atomics x l y) (h' : Atomics y l' z) : Atomics x (l ++ l') z := by
  induction h with
  | nil a => exact h'
  | cons a b c e' es' h3 h4 ih => exact .cons _ _ _ _ _ h3 (ih h')

theorem atomics_op {a a' : Abs} {es : List Ev} (h : Atomics a es a') (w : Nat) :
    a'.op w = es.foldl (fun o e => match e with
      | .begin t o' => if t = w then o' else o
      | _ => o) (a.op w) := by
  induction h with
  | nil a => rfl
  | cons a a1 a2 e es h1 h2 ih =>
    rw [ih, List.foldl_cons]
    congr 1
    cases h1 <;> first | rfl | skip
    simp only [Abs.start]
    by_cases hw : w = ‹Nat›
    · simp [hw]
    · rw [if_neg hw, if_neg (Ne.symm hw)]

theorem op_lastOp {a : Abs} {es : List Ev} (h : Atomics .empty es a) (w : Nat) : a.op w = lastOp es w := atomics_op h w

/-- No property `k` is written or deleted in `es`, which follow after `pre`. -/
def quietOn (k : Nat) (pre es : List Ev) : Prop :=
  ∀ x w y, es = x ++ .wrote w :: y → (lastOp (pre ++ x) w).key ≠ k

theorem quietOn.tail {k : Nat} {pre es : List Ev} {e : Ev} (h : quietOn k pre (e :: es)) : quietOn k (pre ++ [e]) es := by
  intro x w y hxy
  have := h (e :: x) w y (by rw [hxy]; rfl)
  simpa using this

/-- As long as property `k` is not written, it keeps its value; and threads which begin to look for it will find it. -/
theorem quiet_map {k : Nat} {pre es : List Ev} {a b : Abs} (hp : Atomics .empty pre a) (h : Atomics a es b) (hq : quietOn k pre es) :
    b.map k = a.map k ∧
    ∀ u v, a.map k = some v → ((a.op u).key = k → a.gone u = false) → (b.op u).key = k → b.gone u = false := by
  induction h generalizing pre with
  | nil a => exact ⟨rfl, fun u v _ h => h⟩
  | cons a a1 a2 e es h1 h2 ih =>
    have hp1 : Atomics .empty (pre ++ [e]) a1 := atomics_trans hp (.cons _ _ _ _ _ h1 (.nil _))
    obtain ⟨i1, i2⟩ := ih hp1 hq.tail
    have wr : ∀ w, e = .wrote w → (a.op w).key ≠ k := by
      intro w he
      subst he
      have := hq [] w es rfl
      rw [op_lastOp hp]
      simpa using this
    have key : a1.map k = a.map k ∧ ∀ u v, a.map k = some v → ((a.op u).key = k → a.gone u = false) → (a1.op u).key = k → a1.gone u = false := by
      cases h1 with
      | begin t o =>
        refine ⟨rfl, ?_⟩
        intro u v hv hu ho
        simp only [Abs.start] at ho ⊢
        by_cases hut : u = t
        · rw [if_pos hut] at ho ⊢
          rw [ho, hv]; rfl
        · rw [if_neg hut] at ho ⊢
          exact hu ho
      | set t k' v' ho =>
        have hne := wr t rfl
        rw [ho] at hne
        have hne' : k ≠ k' := fun he => hne he.symm
        refine ⟨by simp [Abs.write, hne'], ?_⟩
        intro u v hv hu ho'
        simp only [Abs.write] at ho' ⊢
        simp [hu ho']
      | del t k' ho =>
        have hne := wr t rfl
        rw [ho] at hne
        have hne' : k ≠ k' := fun he => hne he.symm
        refine ⟨by simp [Abs.write, hne'], ?_⟩
        intro u v hv hu ho'
        simp only [Abs.write] at ho' ⊢
        simp [hu ho', ho', hne']
      | _ => exact ⟨rfl, fun u v _ h => h⟩
    refine ⟨i1.trans key.1, ?_⟩
    intro u v hv hu
    exact i2 u v (by rw [key.1]; exact hv) (key.2 u v hv hu)

/-- A thread which has begun to look for a property after it was written, and before anybody writes or deletes it again, finds it. -/
theorem C24_found_partial (r : Rules) (hw : r.wait = true) (n m : Nat) (hm : 0 < m) (pre es es' : List Ev) (t u k v : Nat) (s : St)
    (hr : Run r n (fresh m) (pre ++ .wrote t :: (es ++ .begin u (.get k) :: (es' ++ [.absent u]))) s)
    (ht : lastOp pre t = .set k v) (hu : ∀ o, .begin u o ∉ es')
    (hq : quietOn k (pre ++ [.wrote t]) (es ++ .begin u (.get k) :: es')) : False := by
  obtain ⟨⟨z, hz⟩, _⟩ := C24_partial r hw n m _ s hm hr
  obtain ⟨a, h1, h2⟩ := atomics_append hz
  cases h2 with
  | cons _ a1 _ _ _ hwr h2 =>
  have hop := op_lastOp h1 t
  rw [ht] at hop
  have hp1 : Atomics .empty (pre ++ [.wrote t]) a1 := by
    exact atomics_trans h1 (.cons _ _ _ _ _ hwr (.nil _))
  have hmap : a1.map k = some v := by
    cases hwr with
    | set _ k' v' ho =>
      rw [hop] at ho
      cases ho
      simp [Abs.write]
    | del _ k' ho => rw [hop] at ho; cases ho
  obtain ⟨b, h3, h4⟩ := atomics_append h2
  have q1 : quietOn k (pre ++ [.wrote t]) es := by
    intro x w y hxy
    exact hq x w (y ++ .begin u (.get k) :: es') (by rw [hxy]; simp)
  have m1 := (quiet_map hp1 h3 q1).1
  cases h4 with
  | cons _ b1 _ _ _ hb h4 =>
  obtain ⟨c, h5, h6⟩ := atomics_append h4
  have hp2 : Atomics .empty ((pre ++ [.wrote t]) ++ es ++ [.begin u (.get k)]) b1 := by
    exact atomics_trans (atomics_trans hp1 h3) (.cons _ _ _ _ _ hb (.nil _))
  have q2 : quietOn k ((pre ++ [.wrote t]) ++ es ++ [.begin u (.get k)]) es' := by
    intro x w y hxy
    have := hq (es ++ .begin u (.get k) :: x) w y (by rw [hxy]; simp)
    simpa using this
  cases hb
  have hg := (quiet_map hp2 h5 q2).2 u v (by show b.map k = _; rw [m1, hmap]) (by
    intro _
    simp [Abs.start, Op.key, m1, hmap])
  have hcop : c.op u = .get k := by
    have := atomics_op h5 u
    rw [this]
    clear this h5 h6 hg q2 hq hr hz h2 h4
    have : ∀ (o : Op), (es'.foldl (fun o e => match e with
      | .begin t o' => if t = u then o' else o
      | _ => o) o) = o := by
      induction es' with
      | nil => intro o; rfl
      | cons e es' ih =>
        intro o
        rw [List.foldl_cons, ih (fun o ho => hu o (by simp [ho]))]
        cases e with
        | begin t' o' =>
          have : t' ≠ u := by rintro rfl; exact hu o' (by simp)
          simp [this]
        | _ => rfl
    rw [this]
    simp [Abs.start]
  have hgone : c.gone u = true := by
    cases h6 with
    | cons _ _ _ _ _ he _ =>
      cases he with
      | absentGet _ _ _ h => exact h
      | absentDel _ _ _ h => exact h
  rw [hg (by rw [hcop]; rfl)] at hgone
  cases hgone

/-- What a thread finds was written last; in particular internal markers are never found, and a deleted property is not found before somebody writes it
again. -/
theorem C24_value_partial (r : Rules) (hw : r.wait = true) (n m : Nat) (hm : 0 < m) (pre es : List Ev) (t u k : Nat) (x : Val) (s : St)
    (hr : Run r n (fresh m) (pre ++ .wrote t :: (es ++ [.found u x])) s)
    (ht : (lastOp pre t).key = k) (hu : lastOp (pre ++ .wrote t :: es) u = .get k) (hq : quietOn k (pre ++ [.wrote t]) es) :
    ∃ v, lastOp pre t = .set k v ∧ x = .val v := by
  obtain ⟨⟨z, hz⟩, _⟩ := C24_partial r hw n m _ s hm hr
  obtain ⟨a, h1, h2⟩ := atomics_append hz
  cases h2 with
  | cons _ a1 _ _ _ hwr h2 =>
  have hop := op_lastOp h1 t
  have hp1 : Atomics .empty (pre ++ [.wrote t]) a1 := atomics_trans h1 (.cons _ _ _ _ _ hwr (.nil _))
  obtain ⟨b, h3, h4⟩ := atomics_append h2
  have m1 := (quiet_map hp1 h3 hq).1
  have hbop : b.op u = .get k := by
    have : Atomics .empty (pre ++ .wrote t :: es) b := by
      have := atomics_trans hp1 h3
      simpa using this
    rw [op_lastOp this, hu]
  cases h4 with
  | cons _ _ _ _ _ he _ =>
  cases he with
  | found _ k' v ho hv =>
  rw [hbop] at ho
  cases ho
  rw [m1] at hv
  rw [← hop]
  cases hwr with
  | set _ k' v' ho =>
    rw [hop] at ho
    rw [ho] at ht
    have hk : k' = k := ht
    subst hk
    simp only [Abs.write, if_true, Option.some.injEq] at hv
    subst hv
    exact ⟨v', by rw [hop, ho], rfl⟩
  | del _ k' ho =>
    rw [hop] at ho
    rw [ho] at ht
    have hk : k' = k := ht
    subst hk
    simp [Abs.write] at hv

/-- Thread 0 writes property 1, writes and deletes property 2 and moves the table. When it has taken the value 10 from the old table, thread 1 begins to
write 30 and helps; it writes to the new table and thread 2 finds 30 and no property 2. -/
example : (play ⟨id, true⟩ (fresh 4)
    ([(0, .op (.set 1 10))] ++ steps 0 6 ++ [(0, .op (.set 2 7))] ++ steps 0 6 ++
     [(0, .op (.del 2))] ++ steps 0 4 ++ [(0, .move), (0, .cap 8)] ++ steps 0 11 ++
     [(1, .op (.set 1 30))] ++ steps 1 18 ++ steps 0 2 ++ steps 1 2 ++ steps 0 2 ++ steps 1 5 ++
     [(2, .op (.get 1))] ++ steps 2 3 ++ [(2, .op (.get 2))] ++ steps 2 2)).map (·.1) =
    some [.begin 0 (.set 1 10), .wrote 0, .begin 0 (.set 2 7), .wrote 0, .begin 0 (.del 2), .wrote 0,
      .begin 1 (.set 1 30), .wrote 1, .begin 2 (.get 1), .found 2 (.val 30), .begin 2 (.get 2), .absent 2] := by decide +kernel

end Verif.PropTab
