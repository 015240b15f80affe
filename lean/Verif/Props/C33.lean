import Verif.Call.GenerLemmas

/-
C33: in every interleaving of calls to one generator from any number of threads, at most one executes its body at any time, its yields are
delivered in order, and once finished it stays finished.
-/
namespace Verif.Gener

variable {F V : Type}

/-- The values which thread `t` got. -/
def gets (t : Nat) (ev : List (Nat × Ev V)) : List V :=
  ev.filterMap fun p => match p.2 with
    | .got v => if p.1 = t then some v else none
    | _ => none

/-- The claim, for a state: one runner; the body does what it does for one caller; each thread gets the values which were yielded to it. -/
structure Good (b : Body F V) (f₀ : F) (s : St F V) : Prop where
  one   : ∀ t u, (s.th t).Runs → (s.th u).Runs → t = u
  seq   : ∃ r f, Seq b f₀ r f (s.log.map Prod.snd)
  deliv : ∀ t, yields t s.log = gets t s.ev ++ (s.th t).pending
  done  : s.g = .done → ∀ s', Reach b s s' → s'.g = .done ∧ s'.log = s.log

/-- The full claim. -/
def C33_full : Prop := ∀ (F V : Type) (b : Body F V) (f : F) (s : St F V), Reach b (init f) s → Good b f s

theorem Phase.Runs.holds : ∀ {p : Phase V}, p.Runs → p.Holds
  | .run _, _ => trivial

theorem done_step {b : Body F V} {f₀ : F} {s s' : St F V} (h : Inv b f₀ s) (hg : s.g = .done) (hs : Step b s s') : s'.g = .done ∧ s'.log = s.log := by
  have hn : ∀ t, ¬ (s.th t).Holds := fun t a => by have := h.held t a; rw [hg] at this; cases this
  cases hs with
  | cas t i x r ht hr hg' => rw [hg] at hg'; rcases hr with rfl | rfl <;> cases hg'
  | read | casFail | running | done | check | drop => exact ⟨hg, rfl⟩
  | push t _ _ _ ht | pushFail t _ _ _ ht | enter t _ _ _ ht | enterFail t _ _ _ ht | go t _ _ ht | yield t _ _ _ ht | ret t _ _ ht | thr t _ _ _ ht
  | finishCall t _ ht | finishNext t _ ht | finishRet t _ ht | finishThr t _ _ ht => exact absurd (by rw [ht]; trivial) (hn t)

theorem done_reach {b : Body F V} {f₀ : F} {s s' : St F V} (h : Inv b f₀ s) (hg : s.g = .done) (hr : Reach b s s') :
    Inv b f₀ s' ∧ s'.g = .done ∧ s'.log = s.log := by
  induction hr with
  | refl => exact ⟨h, hg, rfl⟩
  | step s1 s2 _ hs ih =>
    obtain ⟨i, g, l⟩ := ih
    have := done_step i g hs
    exact ⟨inv_step i hs, this.1, this.2.trans l⟩

/-- **C33**, except that a value may be dropped.  What is missing: a value which was yielded to one thread is lost when another thread ends the
generator before the first one looks at its state (`C33_violated`).  Each thread is still given, in order, the values yielded to it, some of which
are dropped (`received` counts both), and none is dropped before the generator is done. -/
theorem C33_partial (b : Body F V) (f : F) (s : St F V) (h : Reach b (init f) s) :
    (∀ t u, (s.th t).Runs → (s.th u).Runs → t = u) ∧
    (∃ r f', Seq b f r f' (s.log.map Prod.snd)) ∧
    (∀ t, yields t s.log = received t s.ev ++ (s.th t).pending) ∧
    (∀ t v, (t, Ev.lost v) ∈ s.ev → s.g = .done) ∧
    (s.g = .done → ∀ s', Reach b s s' → s'.g = .done ∧ s'.log = s.log) := by
  have i := inv_reach h
  exact ⟨fun t u ht hu => i.uniq t u ht.holds hu.holds, i.seq, i.deliv, i.lost, fun hg s' hr => (done_reach i hg hr).2⟩

theorem gets_eq_received (t : Nat) (ev : List (Nat × Ev V)) (h : ∀ v, (t, Ev.lost v) ∉ ev) : gets t ev = received t ev := by
  induction ev with
  | nil => rfl
  | cons p ev ih =>
    obtain ⟨u, e⟩ := p
    have ih := ih fun v a => h v (by simp [a])
    simp only [gets, received] at ih ⊢
    cases e <;> simp only [List.filterMap_cons, ih]
    case lost v =>
      by_cases a : u = t
      · exact absurd (by simp [a]) (h v)
      · simp [a]

/-- Nothing is dropped until the generator is done. -/
theorem C33_before_end_partial (b : Body F V) (f : F) (s : St F V) (h : Reach b (init f) s) (hg : s.g ≠ .done) : Good b f s := by
  have i := inv_reach h
  refine ⟨fun t u ht hu => i.uniq t u ht.holds hu.holds, i.seq, fun t => ?_, fun a => absurd a hg⟩
  rw [gets_eq_received t _ fun v => i.not_lost hg t v, i.deliv]

/-- An execution all of whose states have a property. -/
inductive ReachIn (P : St F V → Prop) (b : Body F V) (s₀ : St F V) : St F V → Prop
  | refl : ReachIn P b s₀ s₀
  | step (s s' : St F V) (h : ReachIn P b s₀ s) (hs : Step b s s') (hp : P s') : ReachIn P b s₀ s'

theorem ReachIn.reach {P : St F V → Prop} {b : Body F V} {s₀ s : St F V} (h : ReachIn P b s₀ s) : Reach b s₀ s := by
  induction h with
  | refl => exact .refl
  | step s s' _ hs _ ih => exact .step s s' ih hs

/-- If nothing is dropped in a state, the claim holds for it. -/
theorem good_of_not_lost (b : Body F V) (f : F) (s : St F V) (h : Reach b (init f) s) (hl : ∀ t v, (t, Ev.lost v) ∉ s.ev) : Good b f s := by
  have i := inv_reach h
  refine ⟨fun t u ht hu => i.uniq t u ht.holds hu.holds, i.seq, fun t => ?_, fun hg s' hr => (done_reach i hg hr).2⟩
  rw [gets_eq_received t _ (hl t), i.deliv]

/-- The step of the machine which drops a value. -/
theorem lost_step {b : Body F V} {s s' : St F V} (hs : Step b s s') (hl : ∀ t v, (t, Ev.lost v) ∉ s.ev) (hd : ∀ t v, s.th t = .check v → s.g ≠ .done) :
    ∀ t v, (t, Ev.lost v) ∉ s'.ev := by
  intro t v hv
  cases hs with
  | drop u w hu hg => exact hd u w hu hg
  | finishThr u i w hu =>
    simp only [St.tell, St.at, List.mem_append, List.mem_singleton] at hv
    rcases hv with hv | hv
    · exact hl t v hv
    · split at hv <;> simp at hv
  | _ => exact hl t v (by simpa [St.tell, St.at] using hv)

/-- The generator is called with `g(x)` only, by any number of threads. -/
def OnlyCalls (s : St F V) : Prop := ∀ t, match s.th t with
  | .read i _ _ | .push i _ _ | .enter i _ _ | .run i | .finish i _ => i = .call
  | .check _ => False
  | .idle => True

/-- **C33** in full for calls `g(x)`, by any number of threads. -/
theorem C33_calls_partial (b : Body F V) (f : F) (s : St F V) (h : ReachIn OnlyCalls b (init f) s) : Good b f s := by
  suffices a : OnlyCalls s ∧ ∀ t v, (t, Ev.lost v) ∉ s.ev from good_of_not_lost b f s h.reach a.2
  induction h with
  | refl => exact ⟨fun t => by simp [init], fun t v => by simp [init]⟩
  | step s s' _ hs hp ih => exact ⟨hp, lost_step hs ih.2 fun t v ht => by have := ih.1 t; rw [ht] at this; exact this.elim⟩

/-- Only thread `t₀` uses the generator. -/
def OnlyOne (t₀ : Nat) (s : St F V) : Prop := ∀ t, t ≠ t₀ → s.th t = .idle

theorem alone_step {b : Body F V} {t₀ : Nat} {s s' : St F V} (hs : Step b s s') (ho : OnlyOne t₀ s) (ho' : OnlyOne t₀ s')
    : ∀ v, s'.th t₀ = .check v → s'.g = .active := by
  intro v hv
  cases hs with
  | finishNext t w ht => rfl
  | read t _ _ ht =>
    by_cases a : t₀ = t
    · subst a; simp [St.at] at hv
    · have := ho' t (Ne.symm a); simp [St.at] at this
  | cas t _ _ _ ht | casFail t _ _ _ ht | running t _ _ ht | done t _ _ ht | push t _ _ _ ht | pushFail t _ _ _ ht | enter t _ _ _ ht
  | enterFail t _ _ _ ht | go t _ _ ht | yield t _ _ _ ht | ret t _ _ ht | thr t _ _ _ ht | finishCall t _ ht | finishRet t _ ht | finishThr t _ _ ht
  | check t _ ht | drop t _ ht =>
    by_cases a : t₀ = t
    · subst a; simp [St.at, St.tell, ht] at hv
    · exact absurd ((ho t (Ne.symm a)).symm.trans ht) (by simp)

/-- **C33** in full for one thread, however it calls the generator. -/
theorem C33_alone_partial (b : Body F V) (f : F) (t₀ : Nat) (s : St F V) (h : ReachIn (OnlyOne t₀) b (init f) s) : Good b f s := by
  suffices a : OnlyOne t₀ s ∧ (∀ v, s.th t₀ = .check v → s.g = .active) ∧ ∀ t v, (t, Ev.lost v) ∉ s.ev from good_of_not_lost b f s h.reach a.2.2
  induction h with
  | refl => exact ⟨fun _ _ => rfl, fun _ a => by simp [init] at a, fun t v => by simp [init]⟩
  | step s s' _ hs hp ih =>
    obtain ⟨h1, h2, h3⟩ := ih
    refine ⟨hp, alone_step hs h1 hp, lost_step hs h3 fun t v ht => ?_⟩
    by_cases a : t = t₀
    · subst a; simp [h2 v ht]
    · rw [h1 t a] at ht; cases ht

/-! ### Counterexample -/

/-- `yield 7`, then return. -/
def once : Body Nat Nat where
  step n := if n = 0 then .yield 7 1 else .ret 2
  resume n _ := n
  isEnd _ := false

/-- Two threads loop over one generator.  Thread 0 is given 7, but before it looks at the state, thread 1 ends the generator: 7 is lost. -/
theorem C33_lost_violated : ∃ s, Reach once (init 0) s ∧ s.log = [(0, .yield 7), (1, .ret)] ∧ s.ev = [(1, .end), (0, .lost 7)] := by
  have h0 := Reach.refl (b := once) (s₀ := init 0)
  have h1 := Reach.step _ _ h0 (.read _ 0 .next 0 rfl)
  have h2 := Reach.step _ _ h1 (.cas _ 0 .next 0 .ready rfl (.inl rfl) rfl)
  have h3 := Reach.step _ _ h2 (.push _ 0 .next 0 .ready rfl)
  have h4 := Reach.step _ _ h3 (.enter _ 0 .next 0 .ready rfl)
  have h5 := Reach.step _ _ h4 (.yield _ 0 .next 7 1 rfl rfl)
  have h6 := Reach.step _ _ h5 (.finishNext _ 0 7 rfl)
  have k1 := Reach.step _ _ h6 (.read _ 1 .next 0 rfl)
  have k2 := Reach.step _ _ k1 (.cas _ 1 .next 0 .active rfl (.inr rfl) rfl)
  have k3 := Reach.step _ _ k2 (.push _ 1 .next 0 .active rfl)
  have k4 := Reach.step _ _ k3 (.enter _ 1 .next 0 .active rfl)
  have k5 := Reach.step _ _ k4 (.ret _ 1 .next 2 rfl rfl)
  have k6 := Reach.step _ _ k5 (.finishRet _ 1 .next rfl)
  exact ⟨_, Reach.step _ _ k6 (.drop _ 0 7 rfl rfl), rfl, rfl⟩

theorem C33_violated : ¬ C33_full := fun h => by
  obtain ⟨s, h1, h2, h3⟩ := C33_lost_violated
  have a := (h _ _ once 0 s h1).deliv 0
  have p : (s.th 0).pending = [] := by
    have := (inv_reach h1).deliv 0
    rw [h2, h3] at this
    simpa [yields, received] using this
  rw [h2, h3, p] at a
  simp [yields, gets] at a

/-! ### Example -/

/-- One caller gets 7, then the end. -/
example : Seq once 0 .done 2 [.yield 7, .ret] :=
  .again 0 1 1 2 [.yield 7] .ret (.first 0 0 1 [] (.yield 7) .start (.refl _) rfl) (.refl _) rfl

example : ¬ ∃ r f, Seq once 0 r f [.yield 8] := by
  rintro ⟨r, f, h⟩
  generalize hl : [Out.yield 8] = l at h
  cases h with
  | start => cases hl
  | first f f' f'' l o h hg hleave =>
    have e : l = [] ∧ o = .yield 8 := by cases l with | nil => simp at hl; simp [hl] | cons a l => simp at hl
    obtain ⟨rfl, rfl⟩ := e
    simp only [Leaves, once] at hleave
    split at hleave <;> simp at hleave
  | again x f f' f'' l o h hg hleave =>
    have e : l = [] ∧ o = .yield 8 := by cases l with | nil => simp at hl; simp [hl] | cons a l => simp at hl
    obtain ⟨rfl, rfl⟩ := e
    simp only [Leaves, once] at hleave
    split at hleave <;> simp at hleave

end Verif.Gener
