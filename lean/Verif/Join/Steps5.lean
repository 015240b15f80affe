/-
  All steps keep the invariant, and only one can fail: kos_join_finished_threads, and the rest.
-/
import Verif.Join.Steps4
namespace Verif.Join

set_option linter.unusedSimpArgs false
set_option linter.unusedVariables false

theorem good_spawn {max a s g t} (h : Inv max s g) (hp : s.pc a = .cCreate t) :
    Good max (.ok (goto t .start (goto a (.cRef t) s))) := by
  have hsl := h.sl.at (x := Sl.made) (t := t) hp (by simp [slView])
  have ti := h.ti t
  have hlt := h.lt (t := t) (by simp [hsl.2])
  have hcr := ti.create (by rw [hsl.2]; rfl)
  have ht0 : t ≠ 0 := by intro e; have := (ti.main e).1; rw [hsl.2] at this; cases this
  have hcn : cls (s.pc t) = .none := ti.early ht0 (by rw [hsl.2]; rfl)
  have hpt : s.pc t = .none := by revert hcn; cases s.pc t <;> simp [cls]
  have hta : t ≠ a := by intro e; rw [e, hp] at hpt; cases hpt
  have hoo : g.obOwn t = none := by
    cases ho : g.obOwn t with
    | none => rfl
    | some b =>
      have := h.ob.o2 b t ho
      rw [hcr.1] at this
      exfalso
      revert this
      cases s.pc b with
      | jSelf u k | jOs u k | jWait u k | jRes u k | jFlag u k | rIdx u k | rSlot u i k | rNum u k | rRel u k =>
        cases k <;> simp [obView]
      | _ => simp [obView]
  have hq : ¬ Quiet s.pc := not_quiet hp rfl rfl
  have pc' : ∀ u, (goto t .start (goto a (.cRef t) s)).pc u = if u = t then .start else if u = a then .cRef t else s.pc u := by
    intro u; simp [goto, upd]
  have hcls : ∀ u, u ≠ t → cls ((goto t .start (goto a (.cRef t) s)).pc u) = cls (s.pc u) := by
    intro u hu
    rw [pc', if_neg hu]
    split
    · rename_i e; rw [e, hp]; rfl
    · rfl
  have hfin : ∀ u, cls (s.pc u) = .unreg ∨ cls (s.pc u) = .dead → cls ((goto t .start (goto a (.cRef t) s)).pc u) = .unreg ∨
      cls ((goto t .start (goto a (.cRef t) s)).pc u) = .dead := by
    intro u hu
    rw [hcls u (by intro e; rw [e, hcn] at hu; simp at hu)]
    exact hu
  have hpc0 : a ≠ 0 → (goto t .start (goto a (.cRef t) s)).pc 0 = s.pc 0 := by
    intro e; rw [pc', if_neg ht0.symm, if_neg e.symm]
  have hpc0' : a = 0 → (goto t .start (goto a (.cRef t) s)).pc 0 = .cRef t := by
    intro e; rw [pc', if_neg ht0.symm, if_pos e.symm]
  intro hc
  refine ⟨g.set t .free none .pre (some a) (g.cl t) (g.clOwn t) (g.pos t) g.counted, ?_⟩
  have fr : Fr a s g (goto t .start (goto a (.cRef t) s)) (g.set t .free none .pre (some a) (g.cl t) (g.clOwn t) (g.pos t) g.counted) := by
    refine ⟨fun b u hb ho => ?_, fun u hu => ?_, fun u hu => ?_, fun u hu => ?_, fun b _ hm => ⟨hm, rfl⟩, fun hc => ⟨hc, fun _ => id⟩⟩
    · have e : u ≠ t := by intro e; rw [e, hsl.1] at ho; cases ho; exact hb rfl
      simp only [G.set, upd_ne _ _ e]; exact ⟨trivial, trivial, id, id⟩
    · have e : u ≠ t := by intro e; rw [e, hsl.2] at hu; cases hu
      simp only [G.set, upd_ne _ _ e]; exact hu
    · have e : u ≠ t := by intro e; rw [e, hcr.1] at hu; cases hu
      simp only [G.set, upd_ne _ _ e]; exact hu
    · rw [pc', if_neg, if_neg]
      · exact hu
      · intro e; rw [e, hp] at hu; cases hu
      · intro e; rw [e, hpt] at hu; cases hu
  refine ⟨Own.stay (Own.move h.sl ?_ ?_ ?_) ?_, Own.stay (Own.move h.ob ?_ ?_ ?_) ?_, Own.stay (Own.keep t h.cl ?_) ?_, fun b => ?_,
    fun u => ?_, h.tb.same t .free ?_, ?_, ?_, fun u hu => ?_, h.next, hc⟩
  · intro u hu; simp [hp, slView, hu.symm]
  · simp [hp, slView]
  · right; simp [slView, Sl.nobody]
  · intro u; simp only [goto, upd_ne _ _ hta, hpt]; rfl
  · intro u hu; simp [hp, obView, hu.symm]
  · intro _; exact hoo
  · left; simp [obView]
  · intro u; simp only [goto, upd_ne _ _ hta, hpt]; rfl
  · intro u; simp [hp, clView]
  · intro u; simp only [goto, upd_ne _ _ hta, hpt]; rfl
  · rw [pc']
    by_cases e : b = t
    · rw [if_pos e, e]; exact ht0
    · rw [if_neg e]
      by_cases e2 : b = a
      · rw [if_pos e2]; trivial
      · rw [if_neg e2]; exact PA.frame h fr e2
  · by_cases e : u = t
    · rw [pc', if_pos e, e]
      simp only [G.set, upd_eq]
      rw [hsl.2, hcr.1, hcr.2, hcn] at ti
      rw [hcr.2]
      show TI t .live .free .pre .none (s.alive t) (s.flags t) (s.ref t) (s.idx t) (g.pos t) (s.waited t) (s.priv t) (s.obj t)
      obtain ⟨⟩ := ti
      constructor <;> grind
    · simp only [G.set, upd_ne _ _ e]
      rw [hcls u e]
      exact h.ti u
  · simp [hsl.2, Sl.inTab, Sl.counted]
  · have lg := h.lg.same t .free (by simp [hsl.2, Sl.waited])
    refine ⟨fun u hu => ?_, fun u r hu => ?_, fun u r hu => ?_, lg.got, lg.gaveOnce, lg.gotOnce⟩
    · by_cases e : u = t
      · simp only [pc', if_pos e, cls] at hu; simp at hu
      · simp only [hcls u e] at hu; exact lg.out u hu
    · by_cases e : u = t
      · simp only [pc', if_pos e, cls] at hu; cases hu
      · simp only [hcls u e] at hu; exact lg.outs u r hu
    · by_cases e : u = t
      · subst e; exact absurd hcn (lg.gave u r hu).1
      · simp only [hcls u e]; exact lg.gave u r hu
  · have hco : ∀ u, (upd g.clOwn t (g.clOwn t)) u = g.clOwn u := by intro u; by_cases e : u = t <;> simp [upd, e]
    have hcc : ∀ u, (upd g.cl t (g.cl t)) u = g.cl u := by intro u; by_cases e : u = t <;> simp [upd, e]
    refine ⟨fun u b h1 h2 => ?_, fun u h1 => ?_, fun h1 => ?_, fun c h1 h2 h3 j u h4 h5 => ?_, fun h1 u => ?_⟩
    · simp only [G.set, hco] at h1; exact hfin u (h.en.claim u b h1 h2)
    · simp only [G.set, hcc] at h1 ⊢
      have e : u ≠ t := by intro e; rw [e] at h1; exact h1 hcr.2
      rw [upd_ne _ _ e]
      rcases h.en.claimed u h1 with h2 | h2
      · exact .inl h2
      · exact absurd h2 hq
    · by_cases e : a = 0
      · rw [hpc0' e] at h1; cases h1
      · rw [hpc0 e] at h1; exact h.en.closed h1
    · by_cases e : a = 0
      · rw [hpc0' e] at h1; cases h1
      · rw [hpc0 e] at h1 h4
        have := h.en.seen c h1 h2 h3 j u h4 h5
        refine ⟨hfin u this.1, ?_⟩
        have e : u ≠ t := by intro e; rw [e, hcn] at this; simp at this
        simp only [G.set, upd_ne _ _ e]; exact this.2
    · by_cases e : a = 0
      · rw [hpc0' e] at h1; cases h1
      · rw [hpc0 e] at h1
        have := all_ended h (h.tb.empty.1 (h.en.over h1)) a e
        rw [hp] at this; simp at this
  · have e : u ≠ t := by intro e; subst e; exact absurd hlt (by simp only [goto] at hu; omega)
    have e2 : u ≠ a := by
      intro e2; subst e2
      have := h.lt (t := u) (by simp [hp])
      simp only [goto] at hu; omega
    rw [pc', if_neg e, if_neg e2]
    simp only [G.set, upd_ne _ _ e]
    exact h.fresh u hu

theorem good_cCreate {max a x s g t} (h : Inv max s g) (hp : s.pc a = .cCreate t) : Good max (step max a x s) := by
  have hsl := h.sl.at (x := Sl.made) (t := t) hp (by simp [slView])
  have ti := h.ti t
  have hlt := h.lt (t := t) (by simp [hsl.2])
  have hcr := ti.create (by rw [hsl.2]; rfl)
  have ht0 : t ≠ 0 := by intro e; have := (ti.main e).1; rw [hsl.2] at this; cases this
  have hcn : cls (s.pc t) = .none := ti.early ht0 (by rw [hsl.2]; rfl)
  simp only [step, hp]
  split
  · intro hc
    refine ⟨_, h.go (p' := .rIdx t .create) t .rem (some a) (g.ob t) (g.obOwn t) (g.cl t) (g.clOwn t) rfl (by rw [hp]; rfl) rfl
      rfl rfl rfl rfl rfl id (fun _ _ => id) (fun u hu => by simp [goto]) (h.sl.move ?_ ?_ ?_) (h.ob.keep _ ?_) (h.cl.keep _ ?_)
      ?_ ?_ id ?_ ?_ id ?_ ?_ ?_ hlt (q1_of ?_) (q3_of ?_) (q4_of ?_) ?_ ?_ hc⟩
    · intro u hu; simp [hp, slView, hu.symm]
    · simp [hp, slView]
    · left; simp [slView]
    · intro u; simp [hp, obView]
    · intro u; simp [hp, clView]
    · intro b hb ho; rw [hsl.1] at ho; cases ho; exact absurd rfl hb
    · simp [hsl.2]
    · simp [hsl.2, Sl.inTab, Sl.counted]
    · simp [hsl.2, Sl.waited]
    · intro b hb _; exact .inl hb
    · intro hz; exact .inl hz
    · intros; simp
    · rw [hp]; rfl
    · simp [scanOf]
    · simp [over]
    · simp [PA, ByR, G.set, hcr]
    · rw [hsl.2, hcn] at ti
      rw [hcn]
      simp only [goto]
      obtain ⟨⟩ := ti
      constructor <;> grind
  · exact good_spawn h hp

theorem good_fBegin {max a x s g} (h : Inv max s g) (hp : s.pc a = .fBegin) : Good max (step max a x s) := by
  have pa : a = 0 := by have := h.pa a; rw [hp] at this; exact this
  simp only [step, hp]
  split
  · trivial
  intro hc
  refine ⟨g, h.pass (p' := .fNum true) rfl (by rw [hp]; rfl) rfl rfl (fun _ => rfl) (fun _ _ => id) ?_ ?_ ?_ ?_ (q3_of ?_) (q4_of ?_) (fun _ => pa) hc⟩
  · intro u; simp [hp, slView]
  · intro u; simp [hp, obView]
  · intro u; simp [hp, clView]
  · intro _; exact ⟨fun _ => rfl, fun _ => .inr rfl⟩
  · simp [scanOf]
  · simp [over]

theorem good_fNum {max a x s g all} (h : Inv max s g) (hp : s.pc a = .fNum all) : Good max (step max a x s) := by
  have pa : all = true → a = 0 := by have := h.pa a; rw [hp] at this; exact this
  simp only [step, hp]
  intro hc
  by_cases hn : s.num = 0
  · rw [if_pos hn] at hc ⊢
    have he : ∀ t, (g.sl t).inTab = false := by
      intro t
      have h1 := h.tb.num
      have h2 : g.counted = [] := List.length_eq_zero_iff.1 (by omega)
      have h3 := h.tb.count t
      rw [h2] at h3
      revert h3; cases g.sl t <;> simp [Sl.inTab, Sl.counted]
    refine ⟨g, h.pass (p' := if all then .destroy else .run) rfl (by rw [hp]; rfl) (by cases all <;> rfl) rfl id (fun _ _ => id) ?_ ?_ ?_ (q1_of ?_) (q3_of ?_) ?_ ?_ hc⟩
    · intro u; cases all <;> simp [hp, slView]
    · intro u; cases all <;> simp [hp, obView]
    · intro u; cases all <;> simp [hp, clView]
    · rw [hp]; cases all <;> rfl
    · cases all <;> simp [scanOf]
    · intro _ _; exact .inr (h.tb.empty.2 he)
    · cases all
      · trivial
      · exact pa rfl
  · rw [if_neg hn] at hc ⊢
    refine ⟨g, h.pass (p' := .fLook { all := all }) rfl (by rw [hp]; rfl) rfl rfl id (fun _ _ => id) ?_ ?_ ?_ (q1_of ?_) ?_ (q4_of ?_) ?_ hc⟩
    · intro u; simp [hp, slView]
    · intro u; simp [hp, obView]
    · intro u; simp [hp, clView]
    · rw [hp]; cases all <;> rfl
    · intro _ c h1 h2 h3 j t h4; simp [passed, scanOf] at h4
    · simp [over]
    · exact ⟨pa, by simp⟩

/-- Who has claimed a thread waits for it, or has removed it. -/
theorem clView_cases {p : Pc} {t : Nat} {x : Cl} (h : clView p t = some x) : (∃ c, p = .fRel t c) ∨ ∃ y, slView p t = some y := by
  cases p with
  | jSelf u k | jOs u k | jWait u k | jRes u k | jFlag u k | rIdx u k | rSlot u i k | rNum u k | rRel u k =>
    right
    cases k <;> simp [clView] at h
    simp [slView, h.1]
  | fRef u c => right; simp [clView] at h; simp [slView, h.1]
  | fRel u c => left; simp [clView] at h; exact ⟨c, by rw [h.1]⟩
  | _ => simp [clView] at h

theorem clView_live {p : Pc} {t : Nat} {x : Cl} (h : clView p t = some x) : cls p = .live ∧ finished p = false := by
  cases p with
  | _ => first | exact ⟨rfl, rfl⟩ | simp [clView] at h

theorem slView_live {p : Pc} {t : Nat} {x : Sl} (h : slView p t = some x) : cls p = .live ∧ finished p = false := by
  cases p with
  | _ => first | exact ⟨rfl, rfl⟩ | simp [slView] at h

/-- A thread in the table which is claimed belongs to a thread which waits for it. -/
theorem claim_owner {max s g t} (h : Inv max s g) (ht : (g.sl t).inTab = true) (hc : g.cl t ≠ .none) :
    ∃ b, g.clOwn t = some b ∧ g.slOwn t = some b := by
  cases ho : g.clOwn t with
  | none =>
    exfalso
    have h1 := h.cl.o3 t ho
    have h2 := (h.ti t).clgone
    cases e : g.cl t with
    | none => exact hc e
    | gone => rw [h2 e] at ht; cases ht
    | cas => rw [e] at h1; cases h1
    | ext => rw [e] at h1; cases h1
  | some b =>
    refine ⟨b, rfl, ?_⟩
    have h1 := h.cl.o2 b t ho
    rcases clView_cases h1 with ⟨c, h2⟩ | ⟨y, h2⟩
    · have := h.pa b
      rw [h2] at this
      rw [this.2.1] at ht; cases ht
    · exact (h.sl.o1 b t y h2).1

theorem quiet_rest {max s g a c} (h : Inv max s g) (hsc : scanOf (s.pc a) = some c) (h1 : Sc a c) (hr : c.rest = true) : Quiet s.pc := by
  have ha := h1.1 (h1.2 hr)
  subst ha
  refine ⟨?_, fun t ht => ?_⟩
  · unfold ending; split <;> first | rfl | simp only [hsc, h1.2 hr]
  · cases e : finished (s.pc t) with
    | true => rfl
    | false => exact absurd ⟨c, hsc, hr, t, ht, e⟩ h.calm

theorem good_fLook {max a x s g c} (h : Inv max s g) (hp : s.pc a = .fLook c) : Good max (step max a x s) := by
  have pa : Sc a c := by have := h.pa a; rw [hp] at this; exact this
  simp only [step, hp, look]
  split
  · trivial
  rename_i hm
  cases hs : s.slot c.i with
  | none =>
    intro hc
    refine ⟨g, h.pass (p' := .fNext c) rfl (by rw [hp]; rfl) rfl rfl id (fun _ _ => id) ?_ ?_ ?_ (q1_of ?_) ?_ (q4_of ?_) pa hc⟩
    · intro u; simp [hp, slView]
    · intro u; simp [hp, obView]
    · intro u; simp [hp, clView]
    · rw [hp]; rfl
    · intro e c' h1 h2 h3 j t h4 h5
      subst e
      simp [scanOf] at h1
      subst h1
      left
      rw [hp]
      refine ⟨rfl, ?_⟩
      simp only [passed, scanOf] at h4 ⊢
      have : j ≠ c.i := by intro e; rw [e, hs] at h5; cases h5
      omega
    · simp [over]
  | some t =>
    have htab := (h.tb.tab t c.i).1 hs
    have ti := h.ti t
    have hal : s.alive t = true := alive_of h (by revert htab; cases g.sl t <;> simp [Sl.inTab, Sl.held])
    refine good_access hal ?_
    split
    · rename_i hj
      have hnj : (s.flags t).joining = false := by
        cases e : (s.flags t).joining with
        | false => rfl
        | true =>
          exfalso
          have hcl := ti.joining.1 e
          obtain ⟨b, h1, h2⟩ := claim_owner h htab.1 hcl
          simp only [joinable, Bool.or_eq_true, beq_iff_eq, Bool.and_eq_true] at hj
          rcases hj with (hj | hj) | hj
          · rw [hj] at e; cases e
          · rw [hj.2] at e; cases e
          · have q := quiet_rest h (a := a) (c := c) (by rw [hp]; rfl) pa hj
            have hb := (clView_live (h.cl.o2 b t h1)).2
            by_cases e0 : b = 0
            · have ha := pa.1 (pa.2 hj)
              have := h.cl.o2 b t h1
              rw [e0, ← ha, hp] at this; simp [clView] at this
            · rw [q.2 b e0] at hb; cases hb
      simp only [hnj, Bool.false_eq_true, if_false]
      intro hc
      refine ⟨g, h.pass (p' := .fCas t (s.flags t) c) rfl (by rw [hp]; rfl) rfl rfl id ?_ ?_ ?_ ?_ (q1_of ?_) (q3_of ?_) (q4_of ?_) ⟨pa, rfl, hs, hnj, hj⟩ hc⟩
      · intro b _ hm'; rw [hm] at hm'; cases hm'
      · intro u; simp [hp, slView]
      · intro u; simp [hp, obView]
      · intro u; simp [hp, clView]
      · rw [hp]; rfl
      · rw [hp]; simp [scanOf, passed]
      · simp [over]
    · rename_i hj
      split
      · intro hc
        refine ⟨g, h.pass (p' := .fNext { c with np := c.np + 1, nf := if s.flags t == { finished := true } then c.nf + 1 else c.nf })
          rfl (by rw [hp]; rfl) rfl rfl id (fun _ _ => id) ?_ ?_ ?_ (q1_of ?_) ?_ (q4_of ?_) pa hc⟩
        · intro u; simp [hp, slView]
        · intro u; simp [hp, obView]
        · intro u; simp [hp, clView]
        · rw [hp]; rfl
        · intro e c' h1 h2 h3
          simp [scanOf] at h1
          subst h1
          simp at h3
        · simp [over]
      · rename_i hd
        intro hc
        refine ⟨g, h.pass (p' := .fNext c) rfl (by rw [hp]; rfl) rfl rfl id (fun _ _ => id) ?_ ?_ ?_ (q1_of ?_) ?_ (q4_of ?_) pa hc⟩
        · intro u; simp [hp, slView]
        · intro u; simp [hp, obView]
        · intro u; simp [hp, clView]
        · rw [hp]; rfl
        · intro e c' h1 h2 h3 j u h4 h5
          subst e
          simp [scanOf] at h1
          subst h1
          by_cases ej : j = c.i
          · right
            subst ej
            rw [hs] at h5
            cases h5
            cases hjd : (s.flags t).joined with
            | true =>
              have := ti.joined hjd
              refine ⟨.inr this.2, ?_⟩
              intro ho
              have h6 := h.sl.o3 t ho
              have h7 := this.1
              have h8 := htab.1
              revert h6 h7 h8; cases g.sl t <;> simp [Sl.nobody, Sl.joined, Sl.inTab]
            | false =>
              have hdo : (s.flags t).disowned = true := by
                rw [hjd] at hd; simpa using hd
              have hjo : (s.flags t).joining = true := by
                revert hj hjd hdo
                rcases s.flags t with ⟨d, f, j1, j2⟩
                simp only [joinable, h2]
                cases d <;> cases f <;> cases j1 <;> cases j2 <;> cases c.rest <;> simp <;> decide
              obtain ⟨b, h6, h7⟩ := claim_owner h htab.1 (ti.joining.1 hjo)
              refine ⟨h.en.claim t b h6 ?_, by rw [h7]; simp⟩
              intro e0
              have := h.cl.o2 b t h6
              rw [e0, hp] at this; simp [clView] at this
          · left
            rw [hp]
            refine ⟨rfl, ?_⟩
            simp only [passed, scanOf] at h4 ⊢
            omega
        · simp [over]

theorem slView_wait {p : Pc} {t : Nat} {x : Sl} (h : slView p t = some x) (h2 : clView p t = none) : ending p = false := by
  cases p with
  | jSelf u k | jOs u k | jWait u k | jRes u k | jFlag u k | rIdx u k | rSlot u i k | rNum u k | rRel u k =>
    simp [slView] at h
    cases k <;> first | rfl | simp [clView, h.1] at h2
  | fRef u c => simp [slView] at h; simp [clView, h.1] at h2
  | cSlot u => rfl
  | cCreate u => rfl
  | _ => simp [slView] at h

/-- What kos_join_finished_threads may take, nobody has. -/
theorem free_of_claim {max s g t} (h : Inv max s g) (ht : (g.sl t).inTab = true) (hc : g.cl t = .none)
    (hd : (g.ob t).disowned = true ∨ Quiet s.pc) : g.sl t = .free ∧ g.slOwn t = none := by
  cases ho : g.slOwn t with
  | none =>
    refine ⟨?_, rfl⟩
    have := h.sl.o3 t ho
    revert this ht; cases g.sl t <;> simp [Sl.nobody, Sl.inTab]
  | some b =>
    exfalso
    rcases hd with hd | hd
    · rcases owner_cases h ho with h1 | h1 | h1 | h1
      · rw [((h.ti t).create h1).1] at hd; cases hd
      · exact h1 hc
      · rw [h1] at hd; cases hd
      · rw [h1.1] at hd; cases hd
    · have h2 := h.sl.o2 b t ho
      by_cases e : b = 0
      · have h3 : clView (s.pc b) t = none := by
          cases h4 : clView (s.pc b) t with
          | none => rfl
          | some y =>
            exfalso
            have h5 := (h.cl.o1 b t y h4).2
            rw [hc] at h5
            subst h5
            revert h4
            cases s.pc b with
            | jSelf u k | jOs u k | jWait u k | jRes u k | jFlag u k | rIdx u k | rSlot u i k | rNum u k | rRel u k =>
              cases k <;> simp [clView]
            | _ => simp [clView]
        have := slView_wait h2 h3
        subst e
        rw [hd.1] at this; cases this
      · have := (slView_live h2).2
        rw [hd.2 b e] at this; cases this

theorem good_fCas {max a x s g t f c} (h : Inv max s g) (hp : s.pc a = .fCas t f c) : Good max (step max a x s) := by
  obtain ⟨pa, hm, hs, hnj, hj⟩ : Sc a c ∧ s.mutex = some a ∧ s.slot c.i = some t ∧ f.joining = false ∧ joinable c f = true := by
    have := h.pa a; rw [hp] at this; exact this
  have htab := (h.tb.tab t c.i).1 hs
  have ti := h.ti t
  have hal : s.alive t = true := alive_of h (by revert htab; cases g.sl t <;> simp [Sl.inTab, Sl.held])
  have hlt := h.lt (t := t) (by left; intro e; rw [e] at htab; simp [Sl.inTab] at htab)
  simp only [step, hp]
  refine good_access hal ?_
  split
  · rename_i hf
    intro hc
    have hcl : g.cl t = .none := by
      have := ti.joining
      rw [hf, hnj] at this
      simpa using this
    have hd : (g.ob t).disowned = true ∨ Quiet s.pc := by
      simp only [joinable, Bool.or_eq_true, beq_iff_eq, Bool.and_eq_true] at hj
      rcases hj with (hj | hj) | hj
      · left; rw [← ti.disowned, hf, hj]
      · left; rw [← ti.disowned, hf, hj.2]
      · right; exact quiet_rest h (a := a) (c := c) (by rw [hp]; rfl) pa hj
    have hfr := free_of_claim h htab.1 hcl hd
    have hco : g.clOwn t = none := by
      cases ho : g.clOwn t with
      | none => rfl
      | some b =>
        have := h.cl.o2 b t ho
        rw [hcl] at this
        exfalso
        revert this
        cases s.pc b with
        | jSelf u k | jOs u k | jWait u k | jRes u k | jFlag u k | rIdx u k | rSlot u i k | rNum u k | rRel u k =>
          cases k <;> simp [clView]
        | _ => simp [clView]
    refine ⟨_, h.go (p' := .fRef t c) t .claimed (some a) (g.ob t) (g.obOwn t) .cas (some a) rfl (by rw [hp]; rfl) rfl
      rfl rfl rfl rfl rfl id (fun _ _ => id) (fun u hu => by simp [goto, upd_ne _ _ hu]) (h.sl.move ?_ ?_ ?_) (h.ob.keep _ ?_) (h.cl.move ?_ ?_ ?_)
      ?_ ?_ id ?_ ?_ id ?_ ?_ ?_ hlt (q1_of ?_) (q3_of ?_) (q4_of ?_) ?_ ?_ hc⟩
    · intro u hu; simp [hp, slView, hu.symm]
    · intro _; exact hfr.2
    · left; simp [slView]
    · intro u; simp [hp, obView]
    · intro u hu; simp [hp, clView, hu.symm]
    · intro _; exact hco
    · left; simp [clView]
    · intro b hb ho; rw [hfr.2] at ho; cases ho
    · simp [hfr.1]
    · simp [hfr.1, Sl.inTab, Sl.counted]
    · simp [hfr.1, Sl.waited]
    · intro b hb hb0
      cases hb
      right
      have hna : c.all = false := by
        cases e : c.all with
        | false => rfl
        | true => exact absurd (pa.1 e) hb0
      have hnr : c.rest = false := by
        cases e : c.rest with
        | false => rfl
        | true => have := pa.2 e; rw [hna] at this; cases this
      apply ti.finished.1
      simp [joinable, hna, hnr] at hj
      rw [hf, hj]
    · intro _; exact .inr hd
    · intros; simp
    · rw [hp]; rfl
    · rw [hp]; simp [scanOf, passed]
    · simp [over]
    · exact ⟨pa, hm, by simp only [G.set, upd_eq]; exact htab.2⟩
    · rw [hfr.1, hcl] at ti
      simp only [goto, upd_eq]
      rw [hf] at ti
      obtain ⟨⟩ := ti
      constructor <;> grind
  · intro hc
    refine ⟨g, h.pass (p' := .fNext { c with np := c.np + 1 }) rfl (by rw [hp]; rfl) rfl rfl id ?_ ?_ ?_ ?_ (q1_of ?_) ?_ (q4_of ?_) pa hc⟩
    · intro b hb hm'; rw [hm] at hm'; cases hm'; exact absurd rfl hb
    · intro u; simp [hp, slView]
    · intro u; simp [hp, obView]
    · intro u; simp [hp, clView]
    · rw [hp]; rfl
    · intro e c' h1 h2 h3
      simp [scanOf] at h1
      subst h1
      simp at h3
    · simp [over]

theorem good_fRef {max a x s g t c} (h : Inv max s g) (hp : s.pc a = .fRef t c) : Good max (step max a x s) := by
  obtain ⟨pa, hm, hps⟩ : Sc a c ∧ s.mutex = some a ∧ g.pos t = c.i := by
    have := h.pa a; rw [hp] at this; exact this
  have hsl := h.sl.at (x := Sl.claimed) (t := t) hp (by simp [slView])
  have hcl := h.cl.at (x := Cl.cas) (t := t) hp (by simp [clView])
  have ti := h.ti t
  have hal : s.alive t = true := alive_of h (by simp [hsl.2, Sl.held])
  have hrf := ti.ref hal
  have hr0 : s.ref t ≠ 0 := by rw [hrf, hsl.2]; simp [Sl.held]
  have hlt := h.lt (t := t) (by simp [hsl.2])
  have hat : a ≠ t := by
    intro e
    subst e
    by_cases e0 : a = 0
    · have := (ti.main e0).1; rw [hsl.2] at this; cases this
    · have := h.en.claim a a hcl.1 e0
      rw [hp] at this; simp [cls] at this
  simp only [step, hp, addRef]
  rw [if_neg (by simp [hr0])]
  refine good_access hal ?_
  intro hc
  refine ⟨_, h.go (p' := .jSelf t (.scan c)) t .claimed (some a) (g.ob t) (g.obOwn t) .ext (some a) rfl (by rw [hp]; rfl) rfl
    rfl rfl rfl rfl rfl id ?_ (fun u hu => by simp [goto, upd_ne _ _ hu]) (h.sl.move ?_ ?_ ?_) (h.ob.keep _ ?_) (h.cl.move ?_ ?_ ?_)
    ?_ ?_ id ?_ ?_ id ?_ ?_ ?_ hlt (q1_of ?_) (q3_of ?_) (q4_of ?_) ?_ ?_ hc⟩
  · intro b hb hm'; rw [hm] at hm'; cases hm'; exact absurd rfl hb
  · intro u hu; simp [hp, slView, hu.symm]
  · simp [hp, slView]
  · left; simp [slView]
  · intro u; simp [hp, obView]
  · intro u hu; simp [hp, clView, hu.symm]
  · simp [hp, clView]
  · left; simp [clView]
  · intro b hb ho; rw [hsl.1] at ho; cases ho; exact absurd rfl hb
  · simp [hsl.2]
  · simp [hsl.2, Sl.inTab, Sl.counted]
  · simp [hsl.2, Sl.waited]
  · intro b hb _; left; rw [hcl.1]; exact hb
  · intro _; left; rw [hcl.2]; simp
  · intros; simp
  · rw [hp]; rfl
  · rw [hp]; simp [scanOf, passed]
  · simp [over]
  · exact ⟨hat, pa, by simp only [G.set, upd_eq]; exact hps⟩
  · rw [hsl.2, hcl.2] at ti hrf
    simp only [goto, upd_eq]
    obtain ⟨⟩ := ti
    constructor <;> grind

theorem good_fRel {max a x s g t c} (h : Inv max s g) (hp : s.pc a = .fRel t c) : Good max (step max a x s) := by
  obtain ⟨pa, hgo, hsn⟩ : Sc a c ∧ g.sl t = .gone ∧ (c.all = true → s.slot c.i = none) := by
    have := h.pa a; rw [hp] at this; exact this
  have hcl := h.cl.at (x := Cl.ext) (t := t) hp (by simp [clView])
  have ti := h.ti t
  have hal : s.alive t = true := alive_of h (by simp [hcl.2, Cl.held])
  have hrf := ti.ref hal
  have hlt := h.lt (t := t) (by simp [hcl.2])
  simp only [step, hp, release]
  refine good_access hal ?_
  intro hc
  have key : ∀ p', (p' = .fNext c ∨ (p' = .run ∧ c.all = false)) →
      ¬ Hasty (goto a p' { s with ref := upd s.ref t (s.ref t - 1), alive := upd s.alive t (s.ref t != 1) }) →
      ∃ g', Inv max (goto a p' { s with ref := upd s.ref t (s.ref t - 1), alive := upd s.alive t (s.ref t != 1) }) g' := by
    intro p' hp' hc
    refine ⟨_, h.go (p' := p') t .gone (g.slOwn t) (g.ob t) (g.obOwn t) .gone none rfl (by rw [hp]; rfl) ?_
      rfl rfl rfl rfl rfl id (fun _ _ => id) (fun u hu => by simp [goto, upd_ne _ _ hu]) ?_ (h.ob.keep _ ?_) (h.cl.move ?_ ?_ ?_)
      ?_ ?_ id ?_ ?_ id ?_ ?_ ?_ hlt (q1_of ?_) ?_ (q4_of ?_) ?_ ?_ hc⟩
    · rcases hp' with rfl | ⟨rfl, _⟩ <;> rfl
    · have := h.sl.keep (a := a) (p' := p') t (by intro u; rcases hp' with rfl | ⟨rfl, _⟩ <;> simp [hp, slView])
      rw [hgo] at this; exact this
    · intro u; rcases hp' with rfl | ⟨rfl, _⟩ <;> simp [hp, obView]
    · intro u hu; rcases hp' with rfl | ⟨rfl, _⟩ <;> simp [hp, clView, hu.symm]
    · simp [hp, clView]
    · right; rcases hp' with rfl | ⟨rfl, _⟩ <;> simp [clView, Cl.nobody]
    · intro b hb ho; rw [hgo, hcl.2]; simp
    · simp
    · simp [hgo]
    · simp [hgo, Sl.waited]
    · simp
    · intro _; left; rw [hcl.2]; simp
    · simp [Sl.inTab]
    · rw [hp]; rcases hp' with rfl | ⟨rfl, e⟩
      · rfl
      · simp [ending, scanOf, e]
    · intro e c' h1 h2 h3 j u h4 h5
      subst e
      rcases hp' with rfl | ⟨rfl, e⟩
      · simp [scanOf] at h1
        subst h1
        left
        rw [hp]
        refine ⟨rfl, ?_⟩
        simp only [passed, scanOf] at h4 ⊢
        have : j ≠ c.i := by intro e; rw [e, hsn h2] at h5; cases h5
        omega
      · cases h1
    · rcases hp' with rfl | ⟨rfl, _⟩ <;> simp [over]
    · rcases hp' with rfl | ⟨rfl, _⟩
      · exact pa
      · trivial
    · rw [hgo, hcl.2] at ti hrf
      simp only [goto, upd_eq]
      obtain ⟨⟩ := ti
      constructor <;> grind
  simp only [afterJoin, scanEnd] at hc ⊢
  split at hc
  · rename_i e
    have ha : c.all = false := by simp at e; exact e.2
    rw [if_pos e]
    simp only [ha, Bool.false_eq_true, if_false] at hc ⊢
    exact key _ (.inr ⟨rfl, ha⟩) hc
  · rename_i e
    simp only [e, Bool.false_eq_true, if_false] at hc ⊢
    exact key _ (.inl rfl) hc

theorem good_fNext {max a x s g c} (h : Inv max s g) (hp : s.pc a = .fNext c) : Good max (step max a x s) := by
  have pa : Sc a c := by have := h.pa a; rw [hp] at this; exact this
  simp only [step, hp]
  intro hc
  simp only [nextSlot] at hc ⊢
  split at hc
  · rename_i hi
    rw [if_pos hi]
    refine ⟨g, h.pass (p' := .fLook { c with i := c.i + 1 }) rfl (by rw [hp]; rfl) rfl rfl id (fun _ _ => id) ?_ ?_ ?_ (q1_of ?_) ?_ (q4_of ?_) pa hc⟩
    · intro u; simp [hp, slView]
    · intro u; simp [hp, obView]
    · intro u; simp [hp, clView]
    · rw [hp]; rfl
    · intro e c' h1 h2 h3 j u h4 h5
      subst e
      simp [scanOf] at h1
      subst h1
      right
      refine h.en.seen c (by rw [hp]; rfl) h2 h3 j u ?_ h5
      rw [hp]; exact h4
    · simp [over]
  · rename_i hi
    rw [if_neg hi]
    split at hc
    · rename_i hall
      rw [if_pos hall]
      refine ⟨g, h.pass (p' := .fLook { c with i := 0, np := 0, nf := 0, rest := c.rest || (c.nf : Int) == s.num }) rfl (by rw [hp]; rfl) rfl rfl id
        (fun _ _ => id) ?_ ?_ ?_ (q1_of ?_) ?_ (q4_of ?_) ?_ hc⟩
      · intro u; simp [hp, slView]
      · intro u; simp [hp, obView]
      · intro u; simp [hp, clView]
      · rw [hp]; rfl
      · intro _ c' h1 h2 h3 j t h4; simp [passed, scanOf] at h4
      · simp [over]
      · simp at hall; exact ⟨pa.1, fun _ => hall.1⟩
    · rename_i hall
      rw [if_neg hall]
      simp only [scanEnd] at hc ⊢
      refine ⟨g, h.pass (p' := if c.all then .destroy else .run) rfl (by rw [hp]; rfl) (by cases c.all <;> rfl) rfl id (fun _ _ => id) ?_ ?_ ?_ (q1_of ?_) (q3_of ?_) ?_ ?_ hc⟩
      · intro u; cases c.all <;> simp [hp, slView]
      · intro u; cases c.all <;> simp [hp, obView]
      · intro u; cases c.all <;> simp [hp, clView]
      · rw [hp]; cases e : c.all <;> simp [ending, scanOf, e]
      · cases c.all <;> simp [scanOf]
      · intro e ho
        subst e
        right
        have ha : c.all = true := by
          cases e : c.all with
          | true => rfl
          | false => rw [e] at ho; cases ho
        have hnp : c.np = 0 := by simpa [ha] using hall
        refine h.tb.empty.2 ?_
        have seen : ∀ t, (g.sl t).inTab = true → (cls (s.pc t) = .unreg ∨ cls (s.pc t) = .dead) ∧ g.slOwn t ≠ none := by
          intro t ht
          have hlt := h.tb.pos t ht
          refine h.en.seen c (by rw [hp]; rfl) ha hnp (g.pos t) t ?_ ((h.tb.tab t _).2 ⟨ht, rfl⟩)
          rw [hp]; simp only [passed]; omega
        intro t
        cases ht : (g.sl t).inTab with
        | false => rfl
        | true =>
          exfalso
          obtain ⟨h1, h2⟩ := seen t ht
          cases ho : g.slOwn t with
          | none => exact h2 ho
          | some b =>
            have h3 := h.sl.o2 b t ho
            have h4 := (slView_live h3).1
            by_cases e0 : b = 0
            · rw [e0, hp] at h3; simp [slView] at h3
            · have hr := runs_of h e0 (by rw [h4]; simp) (by rw [h4]; simp)
              have := (seen b (by revert hr; cases g.sl b <;> simp [Sl.runs, Sl.inTab])).1
              rw [h4] at this; simp at this
      · cases e : c.all
        · trivial
        · exact pa.1 e

end Verif.Join
