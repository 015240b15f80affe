import Verif.Call.GenerLemmas

/-
C34: if resuming a generator fails before its body runs, the generator can be resumed later.
-/
namespace Verif.Gener

variable {F V : Type}

/-- No thread has the generator. -/
def St.Free (s : St F V) : Prop := ∀ t, ¬ (s.th t).Holds

/-- Thread `t` can make the body run. -/
def Resumable (b : Body F V) (s : St F V) (t : Nat) : Prop := ∀ (i : Instr) (x : V), ∃ s', Reach b s s' ∧ s'.th t = .run i ∧ s'.log = s.log ∧
  s'.frame = (if s.g = .active then b.resume s.frame x else s.frame)

/-- The full claim: whatever failed before, if nobody has the generator and it has not ended, then every thread which is idle can resume it. -/
def C34_full : Prop := ∀ (F V : Type) (b : Body F V) (f : F) (s : St F V), Reach b (init f) s → s.Free → s.g ≠ .done → ∀ t, s.th t = .idle → Resumable b s t

/-- No failure but that of the stack leaves the generator marked as running. -/
theorem running_held {b : Body F V} {f₀ : F} {s s' : St F V} (hi : Inv b f₀ s) (hs : Step b s s') (h : s.g = .running → ∃ t, (s.th t).Holds)
    (hno : ∀ t, (t, Ev.overflow) ∉ s'.ev) : s'.g = .running → ∃ t, (s'.th t).Holds := by
  intro hg
  cases hs with
  | cas t | push t | enter t | yield t | ret t | thr t => exact ⟨t, by simp [St.at, Phase.Holds]⟩
  | pushFail t => exact absurd (by simp [St.tell, St.at]) (hno t)
  | go t i f ht => exact ⟨t, by simp [ht, Phase.Holds]⟩
  | finishCall | finishNext | finishRet | finishThr => cases hg
  | enterFail t i x r ht =>
    have hk := hi.ok t
    rw [ht] at hk
    rcases hk.1 with rfl | rfl <;> cases hg
  | read t _ _ ht | casFail t _ _ _ ht | running t _ _ ht | done t _ _ ht | check t _ ht | drop t _ ht =>
    obtain ⟨u, hu⟩ := h hg
    refine ⟨u, ?_⟩
    have : u ≠ t := fun e => by subst e; simp [ht, Phase.Holds] at hu
    simpa [St.at, St.tell, this] using hu

theorem ev_grows {b : Body F V} {s s' : St F V} (hs : Step b s s') : ∀ e ∈ s.ev, e ∈ s'.ev := by
  intro e he
  cases hs <;> simp [St.at, St.tell, he]

theorem free_not_running {b : Body F V} {f : F} {s : St F V} (h : Reach b (init f) s) (hno : ∀ t, (t, Ev.overflow) ∉ s.ev) :
    s.g = .running → ∃ t, (s.th t).Holds := by
  induction h with
  | refl => intro hg; cases hg
  | step s s' hr hs ih => exact running_held (inv_reach hr) hs (ih fun t a => hno t (ev_grows hs _ a)) hno

/-- If the generator waits, every idle thread can resume it. -/
theorem resume_waiting {b : Body F V} {s : St F V} (hg : s.g = .ready ∨ s.g = .active) (t : Nat) (ht : s.th t = .idle) : Resumable b s t := by
  intro i x
  have h1 := Reach.step _ _ (.refl (b := b) (s₀ := s)) (.read s t i x ht)
  have h2 := Reach.step _ _ h1 (.cas _ t i x s.g (by simp [St.at]) hg rfl)
  have h3 := Reach.step _ _ h2 (.push _ t i x s.g (by simp [St.at]))
  have h4 := Reach.step _ _ h3 (.enter _ t i x s.g (by simp [St.at]))
  exact ⟨_, h4, by simp [St.at], rfl, rfl⟩

/-- **C34**, if the stack has never overflown in a call to this generator.  What is missing: after such a failure, the generator can never be
resumed (`C34_stuck_violated`). -/
theorem C34_partial (b : Body F V) (f : F) (s : St F V) (h : Reach b (init f) s) (hno : ∀ t, (t, Ev.overflow) ∉ s.ev) (hf : s.Free) (hd : s.g ≠ .done)
    (t : Nat) (ht : s.th t = .idle) : Resumable b s t := by
  refine resume_waiting ?_ t ht
  cases hg : s.g with
  | ready => exact .inl rfl
  | active => exact .inr rfl
  | done => exact absurd hg hd
  | running => obtain ⟨u, hu⟩ := free_not_running h hno hg; exact absurd hu (hf u)

/-- A failure after the push leaves the generator as it was when it was called: the state, the frame and what it has done. -/
theorem C34_restores (b : Body F V) (f : F) (s : St F V) (h : Reach b (init f) s) (t : Nat) (i : Instr) (x : V) (r : GState) (ht : s.th t = .enter i x r) :
    let s' : St F V := { (s.at t .idle).tell t .nomem with g := r }
    Step b s s' ∧ s'.frame = s.frame ∧ s'.log = s.log ∧ s'.Free ∧ Seq b f s'.g s'.frame (s'.log.map Prod.snd) ∧ Resumable b s' t := by
  have hi := inv_reach h
  have hk := hi.ok t
  rw [ht] at hk
  refine ⟨.enterFail s t i x r ht, rfl, rfl, fun u hu => ?_, hk.2, resume_waiting hk.1 t (by simp [St.at, St.tell])⟩
  by_cases a : u = t
  · simp [St.at, St.tell, a, Phase.Holds] at hu
  · exact hi.others (by rw [ht]; trivial) u a (by simpa [St.at, St.tell, a] using hu)

/-! ### Counterexample -/

/-- Once the generator is marked as running and nobody has it, this remains so, and its body never runs again. -/
theorem C34_stuck_violated (b : Body F V) (s s' : St F V) (hg : s.g = .running) (hf : s.Free) (hr : Reach b s s') :
    s'.g = .running ∧ s'.Free ∧ s'.log = s.log ∧ s'.frame = s.frame := by
  induction hr with
  | refl => exact ⟨hg, hf, rfl, rfl⟩
  | step s1 s2 _ hs ih =>
    obtain ⟨g1, f1, l1, e1⟩ := ih
    cases hs with
    | cas t i x r ht hr hg' => rw [g1] at hg'; rcases hr with rfl | rfl <;> cases hg'
    | push t _ _ _ ht | pushFail t _ _ _ ht | enter t _ _ _ ht | enterFail t _ _ _ ht | go t _ _ ht | yield t _ _ _ ht | ret t _ _ ht | thr t _ _ _ ht
    | finishCall t _ ht | finishNext t _ ht | finishRet t _ ht | finishThr t _ _ ht => exact absurd (by rw [ht]; trivial) (f1 t)
    | read t | casFail t | running t | done t | check t | drop t =>
      refine ⟨g1, fun u hu => ?_, l1, e1⟩
      by_cases a : u = t
      · simp [St.at, St.tell, a, Phase.Holds] at hu
      · exact f1 u (by simpa [St.at, St.tell, a] using hu)

/-- After any call which finds no room on the stack, the generator is in this condition. -/
theorem C34_overflow_violated (b : Body F V) (f : F) (s : St F V) (h : Reach b (init f) s) (t : Nat) (i : Instr) (x : V) (r : GState)
    (ht : s.th t = .push i x r) : ∃ s', Step b s s' ∧ s'.th t = .idle ∧ s'.g = .running ∧ s'.Free := by
  have hi := inv_reach h
  refine ⟨_, .pushFail s t i x r ht, by simp [St.at, St.tell], hi.held t (by rw [ht]; trivial), fun u hu => ?_⟩
  by_cases a : u = t
  · simp [St.at, St.tell, a, Phase.Holds] at hu
  · exact hi.others (by rw [ht]; trivial) u a (by simpa [St.at, St.tell, a] using hu)

theorem C34_violated : ¬ C34_full := fun h => by
  let b : Body Unit Unit := ⟨fun _ => .ret (), fun f _ => f, fun _ => false⟩
  have h1 := Reach.step _ _ (.refl (b := b) (s₀ := init ())) (.read _ 0 .call () rfl)
  have h2 := Reach.step _ _ h1 (.cas _ 0 .call () .ready rfl (.inl rfl) rfl)
  obtain ⟨s, hs, ht, hg, hf⟩ := C34_overflow_violated b () _ h2 0 .call () .ready rfl
  obtain ⟨s', r, t, -⟩ := h _ _ b () s (.step _ _ h2 hs) hf (by simp [hg]) 0 ht .call ()
  exact (C34_stuck_violated b s s' hg hf r).2.1 0 (by rw [t]; trivial)

/-! ### Example -/

/-- A generator which was just made can be resumed. -/
example (b : Body F V) (f : F) : Resumable b (init f : St F V) 3 := C34_partial b f _ .refl (by simp [init]) (by simp [St.Free, init, Phase.Holds]) (by simp [init]) 3 rfl

end Verif.Gener
