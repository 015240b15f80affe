import Verif.Call.Gener

/-
What one caller gets who resumes a generator again and again, and the invariant which says that any number of threads together do the same.
-/
namespace Verif.Gener

variable {F V : Type}

/-- The body gets from one frame to another without leaving. -/
inductive Goes (b : Body F V) : F → F → Prop
  | refl (f : F) : Goes b f f
  | step (f f' f'' : F) (h : Goes b f f') (hs : b.step f' = .go f'') : Goes b f f''

/-- The body leaves with `o`. -/
def Leaves (b : Body F V) (f : F) (o : Out V) (f' : F) : Prop :=
  match o with
  | .yield v => b.step f = .yield v f'
  | .ret => b.step f = .ret f'
  | .thr v => b.step f = .thr v f'

/-- The generator as one caller sees it: its state, its frame and what its body did, after some calls one after the other. -/
inductive Seq (b : Body F V) (f₀ : F) : GState → F → List (Out V) → Prop
  | start : Seq b f₀ .ready f₀ []
  | first (f f' f'' : F) (l : List (Out V)) (o : Out V) (h : Seq b f₀ .ready f l) (hg : Goes b f f') (hl : Leaves b f' o f'') :
    Seq b f₀ o.state f'' (l ++ [o])
  | again (x : V) (f f' f'' : F) (l : List (Out V)) (o : Out V) (h : Seq b f₀ .active f l) (hg : Goes b (b.resume f x) f') (hl : Leaves b f' o f'') :
    Seq b f₀ o.state f'' (l ++ [o])

/-- What is known about each thread. -/
def Phase.Ok (b : Body F V) (f₀ : F) (s : St F V) : Phase V → Prop
  | .push _ _ r | .enter _ _ r => (r = .ready ∨ r = .active) ∧ Seq b f₀ r s.frame (s.log.map Prod.snd)
  | .run _ => ∃ r f f₁, Seq b f₀ r f (s.log.map Prod.snd) ∧ (r = .ready ∧ f₁ = f ∨ r = .active ∧ ∃ x, f₁ = b.resume f x) ∧ Goes b f₁ s.frame
  | .finish _ o => Seq b f₀ o.state s.frame (s.log.map Prod.snd)
  | _ => True

/-- The values which the body yielded to thread `t`. -/
def yields (t : Nat) (log : List (Nat × Out V)) : List V :=
  log.filterMap fun p => match p.2 with
    | .yield v => if p.1 = t then some v else none
    | _ => none

/-- The values which were given back to thread `t`, or dropped. -/
def received (t : Nat) (ev : List (Nat × Ev V)) : List V :=
  ev.filterMap fun p => match p.2 with
    | .got v | .lost v => if p.1 = t then some v else none
    | _ => none

/-- A value on its way. -/
def Phase.pending : Phase V → List V
  | .check v => [v]
  | .finish _ (.yield v) => [v]
  | _ => []

structure Inv (b : Body F V) (f₀ : F) (s : St F V) : Prop where
  uniq  : ∀ t u, (s.th t).Holds → (s.th u).Holds → t = u
  held  : ∀ t, (s.th t).Holds → s.g = .running
  ok    : ∀ t, (s.th t).Ok b f₀ s
  free  : s.g ≠ .running → Seq b f₀ s.g s.frame (s.log.map Prod.snd)
  seq   : ∃ r f, Seq b f₀ r f (s.log.map Prod.snd)
  deliv : ∀ t, yields t s.log = received t s.ev ++ (s.th t).pending
  lost  : ∀ t v, (t, Ev.lost v) ∈ s.ev → s.g = .done

theorem inv_init (b : Body F V) (f : F) : Inv b f (init f : St F V) where
  uniq _ _ h := by simp [init, Phase.Holds] at h
  held _ h := by simp [init, Phase.Holds] at h
  ok _ := by simp [init, Phase.Ok]
  free _ := .start
  seq := ⟨_, _, .start⟩
  deliv _ := by simp [init, yields, received, Phase.pending]
  lost _ _ h := by simp [init] at h

theorem Phase.Ok.of_not_holds {b : Body F V} {f₀ : F} {s : St F V} : ∀ {p : Phase V}, ¬ p.Holds → p.Ok b f₀ s
  | .idle, _ | .read _ _ _, _ | .check _, _ => trivial
  | .push _ _ _, h | .enter _ _ _, h | .run _, h | .finish _ _, h => absurd trivial h

theorem received_append (t : Nat) (l l' : List (Nat × Ev V)) : received t (l ++ l') = received t l ++ received t l' := by simp [received]

theorem yields_append (t : Nat) (l l' : List (Nat × Out V)) : yields t (l ++ l') = yields t l ++ yields t l' := by simp [yields]

theorem Out.state_ne (o : Out V) : o.state ≠ .running := by cases o <;> simp [Out.state]

/-- A change by a thread which does not have the generator, and does not get it. -/
theorem Inv.outside {b : Body F V} {f₀ : F} {s s' : St F V} (h : Inv b f₀ s) (t : Nat) (hg : s'.g = s.g) (hf : s'.frame = s.frame)
    (hlog : s'.log = s.log) (hth : ∀ u, u ≠ t → s'.th u = s.th u) (hn' : ¬ (s'.th t).Holds)
    (hdt : received t s.ev ++ (s.th t).pending = received t s'.ev ++ (s'.th t).pending) (hdu : ∀ u, u ≠ t → received u s'.ev = received u s.ev)
    (hlost : ∀ u v, (u, Ev.lost v) ∈ s'.ev → s.g = .done) : Inv b f₀ s' where
  uniq u v hu hv := by
    have a : u ≠ t := fun e => hn' (e ▸ hu)
    have a' : v ≠ t := fun e => hn' (e ▸ hv)
    exact h.uniq u v (hth u a ▸ hu) (hth v a' ▸ hv)
  held u hu := by
    have a : u ≠ t := fun e => hn' (e ▸ hu)
    rw [hg]; exact h.held u (hth u a ▸ hu)
  ok u := by
    by_cases a : u = t
    · rw [a]; exact .of_not_holds hn'
    · have := h.ok u
      rw [hth u a]
      revert this
      cases s.th u <;> simp [Phase.Ok, hf, hlog]
  free := by rw [hg, hf, hlog]; exact h.free
  seq := by rw [hlog]; exact h.seq
  deliv u := by
    by_cases a : u = t
    · rw [a, hlog, h.deliv, hdt]
    · rw [hlog, h.deliv, hth u a, hdu u a]
  lost u v hv := by rw [hg]; exact hlost u v hv

/-- A change by the thread which has the generator, or gets it. -/
theorem Inv.inside {b : Body F V} {f₀ : F} {s s' : St F V} (_ : Inv b f₀ s) (t : Nat) (hno : ∀ u, u ≠ t → ¬ (s.th u).Holds)
    (hth : ∀ u, u ≠ t → s'.th u = s.th u) (hg : (s'.th t).Holds → s'.g = .running) (hok : (s'.th t).Ok b f₀ s')
    (hfree : s'.g ≠ .running → Seq b f₀ s'.g s'.frame (s'.log.map Prod.snd)) (hseq : ∃ r f, Seq b f₀ r f (s'.log.map Prod.snd))
    (hd : ∀ u, yields u s'.log = received u s'.ev ++ (s'.th u).pending) (hlost : ∀ u v, (u, Ev.lost v) ∉ s'.ev) : Inv b f₀ s' where
  uniq u v hu hv := by
    have a : u = t := Classical.byContradiction fun e => hno u e (hth u e ▸ hu)
    have a' : v = t := Classical.byContradiction fun e => hno v e (hth v e ▸ hv)
    rw [a, a']
  held u hu := by
    have a : u = t := Classical.byContradiction fun e => hno u e (hth u e ▸ hu)
    exact hg (a ▸ hu)
  ok u := by
    by_cases a : u = t
    · rw [a]; exact hok
    · rw [hth u a]; exact .of_not_holds (hno u a)
  free := hfree
  seq := hseq
  deliv := hd
  lost u v hv := absurd hv (hlost u v)

theorem Inv.others {b : Body F V} {f₀ : F} {s : St F V} (h : Inv b f₀ s) {t : Nat} (ht : (s.th t).Holds) (u : Nat) (hu : u ≠ t) : ¬ (s.th u).Holds :=
  fun a => hu (h.uniq u t a ht)

theorem Inv.not_lost {b : Body F V} {f₀ : F} {s : St F V} (h : Inv b f₀ s) (hg : s.g ≠ .done) (u : Nat) (v : V) : (u, Ev.lost v) ∉ s.ev :=
  fun a => hg (h.lost u v a)

/-- The body, which runs, is left. -/
theorem leave_seq {b : Body F V} {f₀ : F} {s : St F V} {i : Instr} (h : (Phase.run i : Phase V).Ok b f₀ s) (o : Out V) (f : F)
    (hl : Leaves b s.frame o f) : Seq b f₀ o.state f (s.log.map Prod.snd ++ [o]) := by
  obtain ⟨r, f1, f2, h1, h2 | h2, h3⟩ := h
  · obtain ⟨rfl, rfl⟩ := h2
    exact .first _ _ _ _ _ h1 h3 hl
  · obtain ⟨rfl, x, rfl⟩ := h2
    exact .again x _ _ _ _ _ h1 h3 hl

theorem inv_leave {b : Body F V} {f₀ : F} {s : St F V} (h : Inv b f₀ s) (t : Nat) (i : Instr) (ht : s.th t = .run i) (o : Out V) (f : F)
    (hl : Leaves b s.frame o f) : Inv b f₀ { s.at t (.finish i o) with frame := f, log := s.log ++ [(t, o)] } := by
  have hh : (s.th t).Holds := by rw [ht]; trivial
  have hr := h.held t hh
  have hs := leave_seq (ht ▸ h.ok t) o f hl
  have hs' : Seq b f₀ o.state f ((s.log ++ [(t, o)]).map Prod.snd) := by simpa using hs
  refine h.inside t (h.others hh) (fun u hu => by simp [St.at, hu]) (fun _ => hr) ?_ (fun a => absurd hr a) ⟨_, _, hs'⟩ (fun u => ?_)
    (h.not_lost (by simp [hr]))
  · simp only [St.at, if_true, Phase.Ok]; exact hs'
  · show yields u (s.log ++ [(t, o)]) = received u s.ev ++ (if u = t then _ else s.th u).pending
    rw [yields_append, h.deliv u]
    by_cases a : u = t
    · subst a
      cases o <;> simp [ht, Phase.pending, yields]
    · have : yields u [(t, o)] = [] := by cases o <;> simp [yields, Ne.symm a]
      simp [this, a]

/-- `finish_call`. -/
theorem inv_finish {b : Body F V} {f₀ : F} {s : St F V} (h : Inv b f₀ s) (t : Nat) (i : Instr) (o : Out V) (ht : s.th t = .finish i o) (p : Phase V)
    (ev : List (Nat × Ev V)) (hp : ¬ p.Holds) (hev : ∀ u v, (u, Ev.lost v) ∉ ev)
    (hd : (Phase.finish i o).pending = received t ev ++ p.pending) (hdu : ∀ u, u ≠ t → received u ev = []) :
    Inv b f₀ { s.at t p with ev := s.ev ++ ev, g := o.state } := by
  have hh : (s.th t).Holds := by rw [ht]; trivial
  have hr := h.held t hh
  have hs : Seq b f₀ o.state s.frame (s.log.map Prod.snd) := by have := h.ok t; rw [ht] at this; exact this
  refine h.inside t (h.others hh) (fun u hu => by simp [St.at, hu]) (fun a => ?_) ?_ (fun _ => hs) ⟨_, _, hs⟩ (fun u => ?_) (fun u v => ?_)
  · exact absurd (by simpa [St.at] using a) hp
  · exact .of_not_holds (by simpa [St.at] using hp)
  · show yields u s.log = received u (s.ev ++ ev) ++ (if u = t then p else s.th u).pending
    rw [h.deliv u, received_append]
    by_cases a : u = t
    · subst a; simp [ht, hd]
    · simp [hdu u a, a]
  · simp only [List.mem_append, not_or]
    exact ⟨h.not_lost (by simp [hr]) u v, hev u v⟩

theorem inv_step {b : Body F V} {f₀ : F} {s s' : St F V} (h : Inv b f₀ s) (hs : Step b s s') : Inv b f₀ s' := by
  cases hs with
  | read t i x ht =>
    exact h.outside t rfl rfl rfl (fun u hu => by simp [St.at, hu]) (by simp [St.at, Phase.Holds]) (by simp [St.at, ht, Phase.pending]) (fun _ _ => rfl) h.lost
  | cas t i x r ht hr hg =>
    have hne : s.g ≠ .running := by rw [hg]; rcases hr with rfl | rfl <;> simp
    have hnd : s.g ≠ .done := by rw [hg]; rcases hr with rfl | rfl <;> simp
    refine h.inside t (fun u _ a => hne (h.held u a)) (fun u hu => by simp [St.at, hu]) (fun _ => rfl) ?_ (fun a => absurd rfl a) h.seq (fun u => ?_) (h.not_lost hnd)
    · simp only [St.at, if_true, Phase.Ok]
      exact ⟨hr, hg ▸ h.free hne⟩
    · show yields u s.log = received u s.ev ++ (if u = t then _ else s.th u).pending
      rw [h.deliv u]
      by_cases a : u = t
      · subst a; simp [ht, Phase.pending]
      · simp [a]
  | casFail t i x r ht hr hg =>
    exact h.outside t rfl rfl rfl (fun u hu => by simp [St.at, St.tell, hu]) (by simp [St.at, St.tell, Phase.Holds])
      (by simp [St.at, St.tell, ht, Phase.pending, received]) (fun u _ => by simp [St.tell, St.at, received])
      (fun u v hv => h.lost u v (by simpa [St.tell, St.at] using hv))
  | running t i x ht =>
    exact h.outside t rfl rfl rfl (fun u hu => by simp [St.at, St.tell, hu]) (by simp [St.at, St.tell, Phase.Holds])
      (by simp [St.at, St.tell, ht, Phase.pending, received]) (fun u _ => by simp [St.tell, St.at, received])
      (fun u v hv => h.lost u v (by simpa [St.tell, St.at] using hv))
  | done t i x ht =>
    exact h.outside t rfl rfl rfl (fun u hu => by simp [St.at, St.tell, hu]) (by simp [St.at, St.tell, Phase.Holds])
      (by simp [St.at, St.tell, ht, Phase.pending, received]) (fun u _ => by simp [St.tell, St.at, received])
      (fun u v hv => h.lost u v (by simpa [St.tell, St.at] using hv))
  | push t i x r ht =>
    have hh : (s.th t).Holds := by rw [ht]; trivial
    have hr := h.held t hh
    refine h.inside t (h.others hh) (fun u hu => by simp [St.at, hu]) (fun _ => hr) ?_ (fun a => absurd hr a) h.seq (fun u => ?_) (h.not_lost (by simp [hr]))
    · have := h.ok t
      rw [ht] at this
      simpa [St.at, Phase.Ok] using this
    · show yields u s.log = received u s.ev ++ (if u = t then _ else s.th u).pending
      rw [h.deliv u]
      by_cases a : u = t
      · subst a; simp [ht, Phase.pending]
      · simp [a]
  | pushFail t i x r ht =>
    exact h.outside t rfl rfl rfl (fun u hu => by simp [St.at, St.tell, hu]) (by simp [St.at, St.tell, Phase.Holds])
      (by simp [St.at, St.tell, ht, Phase.pending, received]) (fun u _ => by simp [St.tell, St.at, received])
      (fun u v hv => h.lost u v (by simpa [St.tell, St.at] using hv))
  | enter t i x r ht =>
    have hh : (s.th t).Holds := by rw [ht]; trivial
    have hr := h.held t hh
    refine h.inside t (h.others hh) (fun u hu => by simp [St.at, hu]) (fun _ => hr) ?_ (fun a => absurd hr a) h.seq (fun u => ?_) (h.not_lost (by simp [hr]))
    · have := h.ok t
      rw [ht] at this
      obtain ⟨h1, h2⟩ := this
      simp only [St.at, if_true, Phase.Ok]
      refine ⟨r, s.frame, _, h2, ?_, .refl _⟩
      rcases h1 with rfl | rfl
      · exact .inl ⟨rfl, by simp⟩
      · exact .inr ⟨rfl, x, by simp⟩
    · show yields u s.log = received u s.ev ++ (if u = t then _ else s.th u).pending
      rw [h.deliv u]
      by_cases a : u = t
      · subst a; simp [ht, Phase.pending]
      · simp [a]
  | enterFail t i x r ht =>
    have hh : (s.th t).Holds := by rw [ht]; trivial
    have hr := h.held t hh
    have hk := h.ok t
    rw [ht] at hk
    refine h.inside t (h.others hh) (fun u hu => by simp [St.at, St.tell, hu]) (fun a => by simp [St.at, St.tell, Phase.Holds] at a) (by simp [St.at, St.tell, Phase.Ok])
      (fun _ => hk.2) h.seq (fun u => ?_) (fun u v => ?_)
    · show yields u s.log = received u (s.ev ++ [(t, Ev.nomem)]) ++ (if u = t then _ else s.th u).pending
      rw [h.deliv u, received_append]
      by_cases a : u = t
      · subst a; simp [ht, Phase.pending, received]
      · simp [a, received]
    · have := h.not_lost (by simp [hr]) u v
      simpa [St.tell, St.at] using this
  | go t i f ht hs =>
    have hh : (s.th t).Holds := by rw [ht]; trivial
    have hr := h.held t hh
    refine h.inside t (h.others hh) (fun _ _ => rfl) (fun _ => hr) ?_ (fun a => absurd hr a) h.seq h.deliv (h.not_lost (by simp [hr]))
    have hk := h.ok t
    rw [ht] at hk
    obtain ⟨r, f1, f2, h1, h2, h3⟩ := hk
    show (s.th t).Ok b f₀ _
    rw [ht]
    exact ⟨r, f1, f2, h1, h2, .step _ _ _ h3 hs⟩
  | yield t i v f ht hs => exact inv_leave h t i ht (.yield v) f hs
  | ret t i f ht hs => exact inv_leave h t i ht .ret f hs
  | thr t i v f ht hs => exact inv_leave h t i ht (.thr v) f hs
  | finishCall t v ht =>
    exact inv_finish h t _ _ ht .idle [(t, .got v)] (by simp [Phase.Holds]) (by simp) (by simp [Phase.pending, received]) (fun u hu => by simp [received, Ne.symm hu])
  | finishNext t v ht =>
    have := inv_finish h t _ _ ht (.check v) [] (by simp [Phase.Holds]) (by simp) (by simp [Phase.pending, received]) (fun u hu => by simp [received])
    rw [List.append_nil] at this
    exact this
  | finishRet t i ht =>
    exact inv_finish h t _ _ ht .idle [(t, .end)] (by simp [Phase.Holds]) (by simp) (by simp [Phase.pending, received]) (fun u hu => by simp [received])
  | finishThr t i v ht =>
    refine inv_finish h t _ _ ht .idle [(t, _)] (by simp [Phase.Holds]) ?_ ?_ ?_
    · intro u w; split <;> simp
    · split <;> simp [Phase.pending, received]
    · intro u hu; split <;> simp [received]
  | check t v ht hg =>
    exact h.outside t rfl rfl rfl (fun u hu => by simp [St.at, St.tell, hu]) (by simp [St.at, St.tell, Phase.Holds])
      (by simp [St.at, St.tell, ht, Phase.pending, received]) (fun u hu => by simp [St.tell, St.at, received, Ne.symm hu])
      (fun u v hv => h.lost u v (by simpa [St.tell, St.at] using hv))
  | drop t v ht hg =>
    exact h.outside t rfl rfl rfl (fun u hu => by simp [St.at, St.tell, hu]) (by simp [St.at, St.tell, Phase.Holds])
      (by simp [St.at, St.tell, ht, Phase.pending, received]) (fun u hu => by simp [St.tell, St.at, received, Ne.symm hu])
      (fun _ _ _ => hg)

theorem inv_reach {b : Body F V} {f : F} {s : St F V} (h : Reach b (init f) s) : Inv b f s := by
  induction h with
  | refl => exact inv_init b f
  | step s s' _ hs ih => exact inv_step ih hs

end Verif.Gener
