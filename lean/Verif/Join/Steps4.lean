/-
  All steps keep the invariant, and only one can fail: threads which begin and end.
-/
import Verif.Join.Steps3
namespace Verif.Join

set_option linter.unusedSimpArgs false
set_option linter.unusedVariables false

/-- A thread which begins or ends. -/
theorem Inv.life {a max : Nat} {p' : Pc} {s s' : S} {g : G} (h : Inv max s g) (ha : a ≠ 0)
    (hpc : s'.pc = upd s.pc a p') (hlive : s.pc a ≠ .none ∧ s.pc a ≠ .dead)
    (hc1 : cls (s.pc a) = .unreg → cls p' = .dead) (hf : finished (s.pc a) = true → finished p' = true)
    (hs : s' = { s with pc := s'.pc, flags := s'.flags, out := s'.out, log := s'.log })
    (hfl : ∀ t, t ≠ a → s'.flags t = s.flags t)
    (v1 : ∀ t, slView p' t = slView (s.pc a) t) (v2 : ∀ t, obView p' t = obView (s.pc a) t)
    (v3 : ∀ t, clView p' t = clView (s.pc a) t)
    (lg : Log (fun t => cls (s'.pc t)) s'.out s'.log g.sl)
    (pa : PA s' g a p')
    (ti : TI a (cls p') (g.sl a) (g.ob a) (g.cl a) (s.alive a) (s'.flags a) (s.ref a) (s.idx a) (g.pos a)
      (s.waited a) (s.priv a) (s.obj a))
    (calm : ¬ Hasty s') : Inv max s' g := by
  have u : ∀ {α : Type} (f : Nat → α), upd f a (f a) = f := by
    intro α f; funext j; by_cases hj : j = a <;> simp [upd, hj]
  have e : g.set a (g.sl a) (g.slOwn a) (g.ob a) (g.obOwn a) (g.cl a) (g.clOwn a) (g.pos a) g.counted = g := by
    simp [G.set, u]
  have hlt := h.lt (t := a) (by simp [hlive.1])
  have tb : Table max s'.slot s'.num (upd g.sl a (g.sl a)) (upd g.pos a (g.pos a)) g.counted := by
    rw [u, u, hs]; exact h.tb
  have := Inv.core (s' := s') h a (g.sl a) (g.slOwn a) (g.ob a) (g.obOwn a) (g.cl a) (g.clOwn a) (g.pos a) g.counted hpc hlive (.inr rfl)
    hc1 hf (by rw [hs]; exact Nat.le_refl _) (by rw [hs]; exact fun hc => ⟨hc, fun _ _ => id⟩)
    (by rw [hs]; exact fun _ _ hm => ⟨hm, rfl⟩) (fun t ht => ⟨by rw [hs], hfl t ht, by rw [hs], by rw [hs], by rw [hs], by rw [hs], by rw [hs]⟩)
    (h.sl.keep a v1) (h.ob.keep a v2) (h.cl.keep a v3) (fun _ _ _ => ⟨rfl, rfl, id, id⟩) id id tb
    (by rw [u]; exact lg) id (fun b hb _ => .inl hb) (fun hb => .inl hb) (fun _ _ => id) (by rw [hs]; exact hlt)
    (fun e => absurd e ha) (fun e => absurd e ha) (fun e => absurd e ha) (by rw [e]; exact pa)
    (by rw [upd_eq, hs]; rw [hs] at ti; exact ti) calm
  rw [e] at this
  exact this

/-- The function of a thread gives `r`. -/
theorem good_give {max a s g r} (h : Inv max s g) (ha : a ≠ 0) (hp : s.pc a = .run ∨ s.pc a = .start) :
    Good max (.ok (goto a (.tOut r) { s with log := s.log ++ [.gave a r] })) := by
  intro hc
  have hl : cls (s.pc a) = .live := by rcases hp with hp | hp <;> rw [hp] <;> rfl
  have ti := h.ti a
  have hn : ∀ r', .gave a r' ∉ s.log := fun r' hm => (h.lg.gave a r' hm).2 hl
  refine ⟨g, h.life (p' := .tOut r) ha rfl ?_ ?_ ?_ rfl (fun t ht => rfl) ?_ ?_ ?_ ?_ ha ?_ hc⟩
  · rcases hp with hp | hp <;> rw [hp] <;> simp
  · rw [hl]; simp
  · rcases hp with hp | hp <;> rw [hp] <;> simp [finished]
  · intro u; rcases hp with hp | hp <;> rw [hp] <;> simp [slView]
  · intro u; rcases hp with hp | hp <;> rw [hp] <;> simp [obView]
  · intro u; rcases hp with hp | hp <;> rw [hp] <;> simp [clView]
  · simp only [goto]
    have lg := h.lg
    refine ⟨fun t ht => ?_, fun t r' ht => ?_, fun t r' ht => ?_, fun b t r' ht => ?_, ?_, ?_⟩
    · by_cases e : t = a
      · subst e; simp [cls] at ht
      · rw [upd_ne _ _ e] at ht
        obtain ⟨r', h1, h2⟩ := lg.out t ht
        exact ⟨r', h1, List.mem_append_left _ h2⟩
    · by_cases e : t = a
      · subst e; simp [cls] at ht; simp [ht]
      · rw [upd_ne _ _ e] at ht; exact List.mem_append_left _ (lg.outs t r' ht)
    · by_cases e : t = a
      · subst e; simp [cls]
      · rw [upd_ne _ _ e]
        simp [e] at ht
        exact lg.gave t r' ht
    · simp at ht
      have := lg.got b t r' ht
      exact ⟨this.1, this.2.1, List.mem_append_left _ this.2.2⟩
    · rw [List.filterMap_append, List.nodup_append]
      refine ⟨lg.gaveOnce, by simp [gaver, List.filterMap_cons], ?_⟩
      intro u hu v hv e
      simp [gaver, List.filterMap_cons] at hv
      subst hv; subst e
      obtain ⟨ev, he, hg'⟩ := List.mem_filterMap.1 hu
      cases ev with
      | got => simp [gaver] at hg'
      | gave u r' => simp [gaver] at hg'; subst hg'; exact hn r' he
    · rw [List.filterMap_append]; simpa [giver, List.filterMap_cons] using lg.gotOnce
  · rw [hl] at ti
    simp only [goto, cls]
    obtain ⟨⟩ := ti
    constructor <;> grind

theorem good_start {max a x s g} (h : Inv max s g) (hp : s.pc a = .start) : Good max (step max a x s) := by
  have pa : a ≠ 0 := by have := h.pa a; rw [hp] at this; exact this
  simp only [step, hp]
  split
  · exact good_give h pa (.inr hp)
  · intro hc
    refine ⟨g, h.pass (p' := .run) rfl (by rw [hp]; rfl) rfl rfl id (fun _ _ => id) ?_ ?_ ?_ (q1_of ?_) (q3_of ?_) (q4_of ?_) trivial hc⟩
    · intro u; simp [hp, slView]
    · intro u; simp [hp, obView]
    · intro u; simp [hp, clView]
    · rw [hp]; rfl
    · simp [scanOf]
    · simp [over]

theorem runs_of {max s g a} (h : Inv max s g) (ha : a ≠ 0) (h1 : cls (s.pc a) ≠ .none) (h2 : cls (s.pc a) ≠ .dead) :
    (g.sl a).runs = true := by
  have ti := h.ti a
  cases he : (g.sl a).early with
  | true => exact absurd (ti.early ha he) h1
  | false =>
    cases hr : (g.sl a).runs with
    | true => rfl
    | false =>
      rcases ti.ended he hr with h3 | h3
      · exact absurd h3 h1
      · exact absurd h3 h2

theorem good_tOut {max a x s g r} (h : Inv max s g) (hp : s.pc a = .tOut r) : Good max (step max a x s) := by
  have pa : a ≠ 0 := by have := h.pa a; rw [hp] at this; exact this
  have hr := runs_of h pa (by rw [hp]; simp [cls]) (by rw [hp]; simp [cls])
  have hal : s.alive a = true := alive_of h (by revert hr; cases g.sl a <;> simp [Sl.runs, Sl.held])
  have ti := h.ti a
  have lg := h.lg
  have hg := lg.outs a r (by simp [hp, cls])
  simp only [step, hp]
  refine good_access hal ?_
  intro hc
  refine ⟨g, h.life (p' := .tFlag) pa rfl ?_ ?_ ?_ rfl (fun t ht => rfl) ?_ ?_ ?_ ?_ pa ?_ hc⟩
  · rw [hp]; simp
  · rw [hp]; simp [cls]
  · rw [hp]; simp [finished]
  · intro u; rw [hp]; simp [slView]
  · intro u; rw [hp]; simp [obView]
  · intro u; rw [hp]; simp [clView]
  · simp only [goto]
    refine ⟨fun t ht => ?_, fun t r' ht => ?_, fun t r' ht => ?_, lg.got, lg.gaveOnce, lg.gotOnce⟩
    · by_cases e : t = a
      · subst e; exact ⟨r, by simp, hg⟩
      · rw [upd_ne _ _ e] at ht ⊢; exact lg.out t ht
    · by_cases e : t = a
      · subst e; simp [cls] at ht
      · rw [upd_ne _ _ e] at ht; exact lg.outs t r' ht
    · by_cases e : t = a
      · subst e; simp [cls]
      · rw [upd_ne _ _ e]; exact lg.gave t r' ht
  · rw [hp] at ti
    simp only [goto, cls] at ti ⊢
    obtain ⟨⟩ := ti
    constructor <;> grind

theorem good_tFlag {max a x s g} (h : Inv max s g) (hp : s.pc a = .tFlag) : Good max (step max a x s) := by
  have pa : a ≠ 0 := by have := h.pa a; rw [hp] at this; exact this
  have hr := runs_of h pa (by rw [hp]; simp [cls]) (by rw [hp]; simp [cls])
  have hal : s.alive a = true := alive_of h (by revert hr; cases g.sl a <;> simp [Sl.runs, Sl.held])
  have ti := h.ti a
  have lg := h.lg
  have hfi : (s.flags a).finished = false := by
    cases hfi : (s.flags a).finished with
    | false => rfl
    | true => have := ti.finished.1 hfi; rw [hp] at this; simp [cls] at this
  simp only [step, hp, setFlag]
  refine good_access hal ?_
  simp only [hfi, Bool.false_eq_true, if_false]
  intro hc
  refine ⟨g, h.life (p' := .tUnreg) pa rfl ?_ ?_ ?_ rfl (fun t ht => by simp [goto, upd_ne _ _ ht]) ?_ ?_ ?_ ?_ pa ?_ hc⟩
  · rw [hp]; simp
  · rw [hp]; simp [cls]
  · rw [hp]; simp [finished]
  · intro u; rw [hp]; simp [slView]
  · intro u; rw [hp]; simp [obView]
  · intro u; rw [hp]; simp [clView]
  · simp only [goto]
    refine ⟨fun t ht => ?_, fun t r' ht => ?_, fun t r' ht => ?_, lg.got, lg.gaveOnce, lg.gotOnce⟩
    · by_cases e : t = a
      · subst e; exact lg.out t (by simp [hp, cls])
      · rw [upd_ne _ _ e] at ht; exact lg.out t ht
    · by_cases e : t = a
      · subst e; simp [cls] at ht
      · rw [upd_ne _ _ e] at ht; exact lg.outs t r' ht
    · by_cases e : t = a
      · subst e; simp [cls]
      · rw [upd_ne _ _ e]; exact lg.gave t r' ht
  · rw [hp] at ti
    simp only [goto, cls, upd_eq] at ti ⊢
    obtain ⟨⟩ := ti
    constructor <;> grind

theorem good_tUnreg {max a x s g} (h : Inv max s g) (hp : s.pc a = .tUnreg) : Good max (step max a x s) := by
  have pa : a ≠ 0 := by have := h.pa a; rw [hp] at this; exact this
  have hr := runs_of h pa (by rw [hp]; simp [cls]) (by rw [hp]; simp [cls])
  have ti := h.ti a
  have lg := h.lg
  simp only [step, hp]
  intro hc
  refine ⟨g, h.life (p' := .dead) pa rfl ?_ ?_ ?_ rfl (fun t ht => rfl) ?_ ?_ ?_ ?_ pa ?_ hc⟩
  · rw [hp]; simp
  · simp [cls]
  · simp [finished]
  · intro u; rw [hp]; simp [slView]
  · intro u; rw [hp]; simp [obView]
  · intro u; rw [hp]; simp [clView]
  · simp only [goto]
    refine ⟨fun t ht => ?_, fun t r' ht => ?_, fun t r' ht => ?_, lg.got, lg.gaveOnce, lg.gotOnce⟩
    · by_cases e : t = a
      · subst e; exact lg.out t (by simp [hp, cls])
      · rw [upd_ne _ _ e] at ht; exact lg.out t ht
    · by_cases e : t = a
      · subst e; simp [cls] at ht
      · rw [upd_ne _ _ e] at ht; exact lg.outs t r' ht
    · by_cases e : t = a
      · subst e; simp [cls]
      · rw [upd_ne _ _ e]; exact lg.gave t r' ht
  · rw [hp] at ti
    simp only [goto, cls] at ti ⊢
    obtain ⟨⟩ := ti
    constructor <;> grind

theorem cls_upd {s : S} {a : Nat} {p p' : Pc} (hp : s.pc a = p) (hc : cls p' = cls p) (u : Nat) :
    cls (upd s.pc a p' u) = cls (s.pc u) := by
  by_cases e : u = a
  · subst e; rw [upd_eq, hp, hc]
  · rw [upd_ne _ _ e]

theorem good_async {max a s g} (h : Inv max s g) (hp : s.pc a = .run) : Good max (call a .async s) := by
  simp only [call]
  intro hc
  obtain ⟨h1, h2, h3, h4⟩ := h.fresh s.next (Nat.le_refl _)
  have ti := h.ti s.next
  have hn := h.next
  have han : s.next ≠ a := by intro e; rw [e, hp] at h4; cases h4
  have own : g.slOwn s.next = none := by
    cases ho : g.slOwn s.next with
    | none => rfl
    | some b =>
      have := h.sl.o2 b _ ho
      rw [h1] at this
      exfalso
      revert this
      cases s.pc b <;> simp [slView]
  refine ⟨_, h.core (p' := .cSlot s.next) s.next .new (some a) (g.ob s.next) (g.obOwn s.next) (g.cl s.next) (g.clOwn s.next) (g.pos s.next) g.counted rfl
    (by rw [hp]; simp) (.inl (by rw [hp]; rfl)) (by rw [hp]; simp [cls]) (by rw [hp]; simp [finished]) (Nat.le_succ _)
    (fun hc => ⟨hc, fun _ _ => id⟩) (fun _ _ hm => ⟨hm, rfl⟩) (fun u hu => by simp [goto, upd_ne _ _ hu])
    (h.sl.move ?_ ?_ ?_) (h.ob.keep _ ?_) (h.cl.keep _ ?_) ?_ ?_ id (h.tb.same _ _ ?_) ?_ id ?_ ?_ ?_ (Nat.lt_succ_self _)
    (q1_of ?_) (q3_of ?_) (q4_of ?_) ?_ ?_ hc⟩
  · intro u hu; simp [hp, slView, hu.symm]
  · intro _; exact own
  · left; simp [slView]
  · intro u; simp [hp, obView]
  · intro u; simp [hp, clView]
  · intro b hb ho; rw [own] at ho; cases ho
  · simp [h1]
  · simp [h1, Sl.inTab, Sl.counted]
  · simp only [goto, cls_upd hp (p' := .cSlot s.next) rfl]
    exact h.lg.same _ _ (by simp [h1, Sl.waited])
  · intro b hb _; exact .inl hb
  · intro hz; exact .inl hz
  · intros; simp
  · rw [hp]; rfl
  · simp [scanOf]
  · simp [over]
  · trivial
  · simp only [goto, upd_eq]
    rw [upd_ne _ _ han]
    rw [h1, h2, h3, h4] at ti
    rw [h2, h3, h4]
    obtain ⟨⟩ := ti
    constructor <;> grind

theorem findSlot_some {max s i} (h : findSlot max s = some i) : i < max ∧ s.slot i = none := by
  have h1 := List.mem_of_find?_eq_some h
  have h2 := List.find?_some h
  simp at h1 h2
  exact ⟨h1, h2⟩

theorem good_cSlot {max a x s g t} (h : Inv max s g) (hp : s.pc a = .cSlot t) : Good max (step max a x s) := by
  have hsl := h.sl.at (x := Sl.new) (t := t) hp (by simp [slView])
  have ti := h.ti t
  have hlt := h.lt (t := t) (by simp [hsl.2])
  have hcr := ti.create (by rw [hsl.2]; rfl)
  have ht0 : t ≠ 0 := by intro e; have := (ti.main e).1; rw [hsl.2] at this; cases this
  have hcn : cls (s.pc t) = .none := ti.early ht0 (by rw [hsl.2]; rfl)
  simp only [step, hp, allocSlot]
  split
  · trivial
  rename_i hm
  split
  · rename_i i hi
    intro hc
    have hcan : s.canCreate = true := by
      cases e : s.canCreate with
      | true => rfl
      | false => rw [e] at hi; cases hi
    rw [hcan] at hi
    obtain ⟨hi1, hi2⟩ := findSlot_some hi
    refine ⟨_, h.core (p' := .cCreate t) t .made (some a) (g.ob t) (g.obOwn t) (g.cl t) (g.clOwn t) i (t :: g.counted) rfl
      (by rw [hp]; simp) (.inl (by rw [hp]; rfl)) (by rw [hp]; simp [cls]) (by rw [hp]; simp [finished]) (Nat.le_refl _)
      (fun hc => by rw [hcan] at hc; cases hc) (fun _ _ hm' => by rw [hm] at hm'; cases hm') (fun u hu => by simp [goto, upd_ne _ _ hu])
      (h.sl.move ?_ ?_ ?_) (h.ob.keep _ ?_) (h.cl.keep _ ?_) ?_ ?_ id ?_ ?_ id ?_ ?_ ?_ hlt
      (q1_of ?_) (q3_of ?_) (q4_of ?_) ?_ ?_ hc⟩
    · intro u hu; simp [hp, slView, hu.symm]
    · simp [hp, slView]
    · left; simp [slView]
    · intro u; simp [hp, obView]
    · intro u; simp [hp, clView]
    · intro b hb ho; rw [hsl.1] at ho; cases ho; exact absurd rfl hb
    · simp [hsl.2]
    · have tb := h.tb
      have hnm : t ∉ g.counted := by rw [tb.count, hsl.2]; simp [Sl.counted]
      refine ⟨fun u j => ?_, fun u => ?_, fun u => ?_, List.nodup_cons.2 ⟨hnm, tb.nodup⟩, ?_⟩
      · have h1 := tb.tab u j
        have h2 := tb.tab t j
        simp only [goto, upd]
        by_cases hj : j = i
        · subst hj
          by_cases hu : u = t
          · subst hu; simp [Sl.inTab]
          · simp only [if_true, hu, if_false]
            rw [hi2] at h1
            constructor
            · intro h; simp at h; exact absurd h.symm hu
            · intro h; have := h1.2 h; cases this
        · by_cases hu : u = t
          · subst hu
            simp only [hj, if_false, if_true]
            rw [hsl.2] at h1
            constructor
            · intro h; have := (h1.1 h).1; cases this
            · intro h; exact absurd h.2.symm hj
          · simp only [hj, if_false, hu]; exact h1
      · simp only [upd]; split
        · intro _; exact hi1
        · exact tb.pos u
      · have := tb.count u
        simp only [upd]; split
        · rename_i e; simp [e, Sl.counted]
        · rename_i e; simp [e, this]
      · have := tb.num
        simp only [goto, List.length_cons]
        omega
    · simp only [goto, cls_upd hp (p' := .cCreate t) rfl]
      exact h.lg.same _ _ (by simp [hsl.2, Sl.waited])
    · intro b hb _; exact .inl hb
    · intro hz; exact .inl hz
    · intros; simp
    · rw [hp]; rfl
    · simp [scanOf]
    · simp [over]
    · trivial
    · simp only [goto, upd_eq, cls_upd hp (p' := .cCreate t) rfl]
      rw [hsl.2] at ti
      obtain ⟨⟩ := ti
      constructor <;> grind
  · intro hc
    refine ⟨_, h.go (p' := .run) t .gone none (g.ob t) (g.obOwn t) (g.cl t) (g.clOwn t) rfl (by rw [hp]; rfl) rfl
      rfl rfl rfl rfl rfl id (fun _ _ => id) (fun u hu => by simp [back, goto, upd_ne _ _ hu]) (h.sl.move ?_ ?_ ?_) (h.ob.keep _ ?_) (h.cl.keep _ ?_)
      ?_ ?_ id ?_ ?_ id ?_ ?_ ?_ hlt (q1_of ?_) (q3_of ?_) (q4_of ?_) ?_ ?_ hc⟩
    · intro u hu; simp [hp, slView, hu.symm]
    · simp [hp, slView]
    · right; simp [slView, Sl.nobody]
    · intro u; simp [hp, obView]
    · intro u; simp [hp, clView]
    · intro b hb ho; rw [hsl.1] at ho; cases ho; exact absurd rfl hb
    · simp [hsl.2]
    · simp [hsl.2, Sl.inTab, Sl.counted]
    · simp [hsl.2, Sl.waited]
    · intro b hb _; exact .inl hb
    · intro hz; exact .inl hz
    · simp [Sl.inTab]
    · rw [hp]; rfl
    · rw [hp]; simp [scanOf, passed]
    · simp [over]
    · trivial
    · rw [hsl.2] at ti
      simp only [goto, upd_eq]
      rw [hcr.1, hcr.2] at ti ⊢
      obtain ⟨⟩ := ti
      constructor <;> grind

end Verif.Join
