/-
  All steps keep the invariant, and only one can fail: joining and releasing.
-/
import Verif.Join.Steps
namespace Verif.Join

set_option linter.unusedSimpArgs false
set_option linter.unusedVariables false

/-- `jRes`, if resuming fails -/
theorem good_jRes_fail {max a s g t k} (h : Inv max s g) (hp : s.pc a = .jRes t k) :
    Good max (.ok (goto a (.jFlag t k) s)) := by
  have pa := h.pa a
  rw [hp] at pa
  have hsl := h.sl.at (x := Sl.os) (t := t) hp (by simp [slView])
  have ti := h.ti t
  have hlt := h.lt (t := t) (by simp [hsl.2])
  intro hc
  refine ⟨_, h.go (p' := .jFlag t k) t .late (some a) (g.ob t) (g.obOwn t) (g.cl t) (g.clOwn t) rfl (by rw [hp]; rfl) rfl
    rfl rfl rfl rfl rfl id (fun _ _ => id) (fun u hu => by simp [goto]) (h.sl.move ?_ ?_ ?_) (h.ob.keep _ ?_) (h.cl.keep _ ?_)
    ?_ ?_ id ?_ ?_ id ?_ ?_ ?_ hlt (q1_of ?_) (q3_of ?_) (q4_of ?_) ?_ ?_ hc⟩
  · intro u hu; simp [hp, slView, hu.symm]
  · simp [hp, slView]
  · left; simp [slView]
  · intro u; cases k <;> simp [hp, obView]
  · intro u; cases k <;> simp [hp, clView]
  · intro b hb ho; rw [hsl.1] at ho; cases ho; exact absurd rfl hb
  · simp [hsl.2]
  · simp [hsl.2, Sl.inTab, Sl.counted]
  · simp [hsl.2, Sl.waited]
  · intro b hb _; exact .inl hb
  · intro hz; exact .inl hz
  · intros; simp
  · rw [hp]; cases k <;> rfl
  · rw [hp]; cases k <;> simp [scanOf, passed]
  · simp [over]
  · refine ⟨?_, ?_⟩
    · have hd := pa.1
      have hta : t ≠ a := by intro e; subst e; rw [hp] at hd; cases hd
      simp only [goto, upd_ne _ _ hta]; exact hd
    · have := pa.2
      cases k <;> simp [PA, ByJ, G.set] at this ⊢; exact this
  · have hd := pa.1
    rw [hsl.2, hd] at ti
    rw [hd]
    simp only [goto]
    obtain ⟨⟩ := ti
    constructor <;> grind

theorem good_jRes {max a x s g t k} (h : Inv max s g) (hp : s.pc a = .jRes t k) : Good max (step max a x s) := by
  have pa := h.pa a
  rw [hp] at pa
  have hsl := h.sl.at (x := Sl.os) (t := t) hp (by simp [slView])
  have ti := h.ti t
  have hlt := h.lt (t := t) (by simp [hsl.2])
  obtain ⟨r, hr, hg⟩ := h.lg.out t (.inr (.inr (by rw [pa.1]; rfl)))
  simp only [step, hp, readResult]
  refine good_access (alive_of h (by simp [hsl.2, Sl.held])) ?_
  split
  · exact good_jRes_fail h hp
  simp only [hr]
  intro hc
  refine ⟨_, h.core (p' := .jFlag t k) t .late (some a) (g.ob t) (g.obOwn t) (g.cl t) (g.clOwn t) (g.pos t) g.counted rfl
    (by rw [hp]; simp) (.inl (by rw [hp]; rfl)) (by rw [hp]; simp [cls]) (by rw [hp]; simp [finished]) (Nat.le_refl _)
    (fun hc => ⟨hc, fun _ _ => id⟩) (fun _ _ hm => ⟨hm, rfl⟩) (fun u hu => by simp [goto])
    (h.sl.move ?_ ?_ ?_) (h.ob.keep _ ?_) (h.cl.keep _ ?_) ?_ ?_ id (h.tb.same t .late ?_) ?_ id ?_ ?_ ?_ hlt
    (q1_of ?_) (q3_of ?_) (q4_of ?_) ?_ ?_ hc⟩
  · intro u hu; simp [hp, slView, hu.symm]
  · simp [hp, slView]
  · left; simp [slView]
  · intro u; cases k <;> simp [hp, obView]
  · intro u; cases k <;> simp [hp, clView]
  · intro b hb ho; rw [hsl.1] at ho; cases ho; exact absurd rfl hb
  · simp [hsl.2]
  · simp [hsl.2, Sl.inTab, Sl.counted]
  · have hcls' : (fun t => cls (upd s.pc a (.jFlag t k) t)) = fun t => cls (s.pc t) := by
      funext u
      by_cases e : u = a
      · subst e; simp [hp, cls]
      · simp [upd_ne _ _ e]
    have hcls' : ∀ u, cls (upd s.pc a (.jFlag t k) u) = cls (s.pc u) := by
      intro u
      by_cases e : u = a
      · subst e; simp [hp, cls]
      · simp [upd_ne _ _ e]
    simp only [goto, hcls']
    have hl := h.lg.same t .late (by simp [hsl.2])
    refine ⟨?_, ?_, ?_, ?_, ?_, ?_⟩
    · intro u hu
      obtain ⟨r', h1, h2⟩ := hl.out u hu
      exact ⟨r', h1, List.mem_append_left _ h2⟩
    · intro u r' hu; exact List.mem_append_left _ (hl.outs u r' hu)
    · intro u r' hu
      simp at hu
      exact hl.gave u r' hu
    · intro b u r' hu
      rcases List.mem_append.1 hu with h1 | h1
      · have := hl.got b u r' h1
        exact ⟨this.1, this.2.1, List.mem_append_left _ this.2.2⟩
      · simp at h1
        obtain ⟨rfl, rfl, rfl⟩ := h1
        exact ⟨by simp [Sl.waited], by simp, List.mem_append_left _ hg⟩
    · rw [List.filterMap_append]; simpa [gaver, List.filterMap_cons] using hl.gaveOnce
    · rw [List.filterMap_append, List.nodup_append]
      refine ⟨hl.gotOnce, by simp [giver], ?_⟩
      intro u hu v hv e
      simp [giver] at hv
      subst hv; subst e
      obtain ⟨ev, he, hg'⟩ := List.mem_filterMap.1 hu
      cases ev with
      | gave => simp [giver] at hg'
      | got b u r' =>
        simp [giver] at hg'; subst hg'
        have := h.lg.got b u r' he
        exact this.2.1 hsl.2
  · intro b hb _; exact .inl hb
  · intro hz; exact .inl hz
  · intros; simp
  · rw [hp]; cases k <;> rfl
  · rw [hp]; cases k <;> simp [scanOf, passed]
  · simp [over]
  · refine ⟨?_, ?_⟩
    · have hd := pa.1
      have hta : t ≠ a := by intro e; subst e; rw [hp] at hd; cases hd
      simp only [goto, upd_ne _ _ hta]; exact hd
    · have := pa.2
      cases k <;> simp [PA, ByJ, G.set] at this ⊢; exact this
  · have hd := pa.1
    have hta : t ≠ a := by intro e; subst e; rw [hp] at hd; cases hd
    rw [upd_ne _ _ hta]
    rw [hsl.2, hd] at ti
    rw [hd]
    simp only [goto]
    obtain ⟨⟩ := ti
    constructor <;> grind

theorem good_jFlag {max a x s g t k} (h : Inv max s g) (hp : s.pc a = .jFlag t k) : Good max (step max a x s) := by
  have pa := h.pa a
  rw [hp] at pa
  have hsl := h.sl.at (x := Sl.late) (t := t) hp (by simp [slView])
  have ti := h.ti t
  have hlt := h.lt (t := t) (by simp [hsl.2])
  have hw : (s.flags t).joined = false := by
    cases hw : (s.flags t).joined with
    | false => rfl
    | true => have := (ti.joined hw).1; simp [hsl.2, Sl.joined] at this
  have hd : cls (s.pc t) = .dead := by rw [pa.1]; rfl
  simp only [step, hp, setFlag]
  refine good_access (alive_of h (by simp [hsl.2, Sl.held])) ?_
  simp only [hw, Bool.false_eq_true, if_false]
  intro hc
  refine ⟨_, h.go (p' := .rIdx t k) t .rem (some a) (g.ob t) (g.obOwn t) (g.cl t) (g.clOwn t) rfl (by rw [hp]; rfl) rfl
    rfl rfl rfl rfl rfl id (fun _ _ => id) (fun u hu => by simp [goto, upd_ne _ _ hu]) (h.sl.move ?_ ?_ ?_) (h.ob.keep _ ?_) (h.cl.keep _ ?_)
    ?_ ?_ id ?_ ?_ id ?_ ?_ ?_ hlt (q1_of ?_) (q3_of ?_) (q4_of ?_) ?_ ?_ hc⟩
  · intro u hu; simp [hp, slView, hu.symm]
  · simp [hp, slView]
  · left; simp [slView]
  · intro u; cases k <;> simp [hp, obView]
  · intro u; cases k <;> simp [hp, clView]
  · intro b hb ho; rw [hsl.1] at ho; cases ho; exact absurd rfl hb
  · simp [hsl.2]
  · simp [hsl.2, Sl.inTab, Sl.counted]
  · simp [hsl.2, Sl.waited]
  · intro b hb _; exact .inl hb
  · intro hz; exact .inl hz
  · intros; simp
  · rw [hp]; cases k <;> rfl
  · rw [hp]; cases k <;> simp [scanOf, passed]
  · simp [over]
  · have pa := pa.2
    cases k <;> simp [PA, ByJ, ByR, G.set] at pa ⊢; exact pa
  · rw [hsl.2] at ti
    simp only [goto, upd_eq]
    obtain ⟨⟩ := ti
    constructor <;> grind

theorem good_rIdx {max a x s g t k} (h : Inv max s g) (hp : s.pc a = .rIdx t k) : Good max (step max a x s) := by
  have pa := h.pa a
  rw [hp] at pa
  have hsl := h.sl.at (x := Sl.rem) (t := t) hp (by simp [slView])
  have ti := h.ti t
  have hlt := h.lt (t := t) (by simp [hsl.2])
  have hi : s.idx t = some (g.pos t) := by rw [ti.idx, hsl.2]; rfl
  simp only [step, hp]
  refine good_access (alive_of h (by simp [hsl.2, Sl.held])) ?_
  simp only [hi]
  intro hc
  refine ⟨_, h.go (p' := .rSlot t (g.pos t) k) t .cut (some a) (g.ob t) (g.obOwn t) (g.cl t) (g.clOwn t) rfl (by rw [hp]; rfl) rfl
    rfl rfl rfl rfl rfl id (fun _ _ => id) (fun u hu => by simp [goto, upd_ne _ _ hu]) (h.sl.move ?_ ?_ ?_) (h.ob.keep _ ?_) (h.cl.keep _ ?_)
    ?_ ?_ id ?_ ?_ id ?_ ?_ ?_ hlt (q1_of ?_) (q3_of ?_) (q4_of ?_) ?_ ?_ hc⟩
  · intro u hu; simp [hp, slView, hu.symm]
  · simp [hp, slView]
  · left; simp [slView]
  · intro u; cases k <;> simp [hp, obView]
  · intro u; cases k <;> simp [hp, clView]
  · intro b hb ho; rw [hsl.1] at ho; cases ho; exact absurd rfl hb
  · simp [hsl.2]
  · simp [hsl.2, Sl.inTab, Sl.counted]
  · simp [hsl.2, Sl.waited]
  · intro b hb _; exact .inl hb
  · intro hz; exact .inl hz
  · intros; simp
  · rw [hp]; cases k <;> rfl
  · rw [hp]; cases k <;> simp [scanOf, passed]
  · simp [over]
  · cases k <;> simp [PA, ByJ, ByR, G.set] at pa ⊢ <;> exact pa
  · rw [hsl.2] at ti
    simp only [goto, upd_eq]
    obtain ⟨⟩ := ti
    constructor <;> grind

theorem good_rSlot {max a x s g t i k} (h : Inv max s g) (hp : s.pc a = .rSlot t i k) : Good max (step max a x s) := by
  have pa := h.pa a
  rw [hp] at pa
  have hsl := h.sl.at (x := Sl.cut) (t := t) hp (by simp [slView])
  have ti := h.ti t
  have hlt := h.lt (t := t) (by simp [hsl.2])
  have hs : s.slot i = some t := (h.tb.tab t i).2 ⟨by rw [hsl.2]; rfl, pa.1⟩
  simp only [step, hp]
  split
  · trivial
  rename_i hm
  rw [if_pos hs]
  intro hc
  refine ⟨_, h.core (p' := .rNum t k) t .num (some a) (g.ob t) (g.obOwn t) (g.cl t) (g.clOwn t) (g.pos t) g.counted rfl
    (by rw [hp]; simp) (.inl (by rw [hp]; rfl)) (by rw [hp]; simp [cls]) (by rw [hp]; simp [finished]) (Nat.le_refl _)
    (fun hc => ⟨hc, ?_⟩) (fun _ _ hm' => by rw [hm] at hm'; cases hm') (fun u hu => by simp [goto])
    (h.sl.move ?_ ?_ ?_) (h.ob.keep _ ?_) (h.cl.keep _ ?_) ?_ ?_ id ?_ ?_ id ?_ ?_ ?_ hlt
    (q1_of ?_) (q3_of ?_) (q4_of ?_) ?_ ?_ hc⟩
  · intro j u; simp only [goto, upd]; split
    · intro h; cases h
    · exact id
  · intro u hu; simp [hp, slView, hu.symm]
  · simp [hp, slView]
  · left; simp [slView]
  · intro u; cases k <;> simp [hp, obView]
  · intro u; cases k <;> simp [hp, clView]
  · intro b hb ho; rw [hsl.1] at ho; cases ho; exact absurd rfl hb
  · simp [hsl.2]
  · have e1 : upd g.pos t (g.pos t) = g.pos := by funext j; by_cases hj : j = t <;> simp [upd, hj]
    rw [e1]
    have tb := h.tb
    refine ⟨fun u j => ?_, fun u => ?_, fun u => ?_, tb.nodup, tb.num⟩
    · have h1 := tb.tab u j
      have h2 := tb.tab t i
      simp only [goto, upd]
      by_cases hj : j = i
      · subst hj
        by_cases hu : u = t
        · subst hu; simp [Sl.inTab]
        · simp only [if_true, hu, if_false]
          rw [hs] at h1
          constructor
          · intro h; cases h
          · intro h; have := h1.2 h; simp at this; exact absurd this.symm hu
      · by_cases hu : u = t
        · subst hu; simp only [hj, if_false, if_true, Sl.inTab, Bool.false_eq_true, false_and, iff_false]
          intro hh
          exact hj ((h1.1 hh).2.symm.trans pa.1)
        · simp only [hj, if_false, hu]; exact h1
    · simp only [upd]; split
      · simp [Sl.inTab]
      · exact tb.pos u
    · have := tb.count u
      simp only [upd]; split
      · rename_i e; rw [e, hsl.2] at this; rw [e]; exact this
      · exact this
  · have hcls' : ∀ u, cls (upd s.pc a (.rNum t k) u) = cls (s.pc u) := by
      intro u
      by_cases e : u = a
      · subst e; simp [hp, cls]
      · simp [upd_ne _ _ e]
    simp only [goto, hcls']
    exact h.lg.same t .num (by simp [hsl.2, Sl.waited])
  · intro b hb _; exact .inl hb
  · intro hz; exact .inl hz
  · intros; simp
  · rw [hp]; cases k <;> rfl
  · rw [hp]; cases k <;> simp [scanOf, passed]
  · simp [over]
  · cases k with
    | create => simpa [PA, ByO, ByR, G.set] using pa.2
    | wait => trivial
    | scan c =>
      have h2 := pa.2
      refine ⟨h2.1, fun _ => ?_⟩
      have : c.i = i := by rw [← pa.1]; exact h2.2.symm
      simp [goto, this]
  · have hcls' : cls (upd s.pc a (.rNum t k) t) = cls (s.pc t) := by
      by_cases e : t = a
      · subst e; simp [hp, cls]
      · simp [upd_ne _ _ e]
    rw [hcls']
    rw [hsl.2] at ti
    simp only [goto, upd_eq]
    obtain ⟨⟩ := ti
    constructor <;> grind

theorem good_rNum {max a x s g t k} (h : Inv max s g) (hp : s.pc a = .rNum t k) : Good max (step max a x s) := by
  have pa := h.pa a
  rw [hp] at pa
  have hsl := h.sl.at (x := Sl.num) (t := t) hp (by simp [slView])
  have ti := h.ti t
  have hlt := h.lt (t := t) (by simp [hsl.2])
  simp only [step, hp]
  intro hc
  have hcls' : ∀ u, cls (upd s.pc a (.rRel t k) u) = cls (s.pc u) := by
    intro u
    by_cases e : u = a
    · subst e; simp [hp, cls]
    · simp [upd_ne _ _ e]
  refine ⟨_, h.core (p' := .rRel t k) t .off (some a) (g.ob t) (g.obOwn t) (g.cl t) (g.clOwn t) (g.pos t) (g.counted.erase t) rfl
    (by rw [hp]; simp) (.inl (by rw [hp]; rfl)) (by rw [hp]; simp [cls]) (by rw [hp]; simp [finished]) (Nat.le_refl _)
    (fun hc => ⟨hc, fun _ _ => id⟩) (fun _ _ hm => ⟨hm, rfl⟩) (fun u hu => by simp [goto])
    (h.sl.move ?_ ?_ ?_) (h.ob.keep _ ?_) (h.cl.keep _ ?_) ?_ ?_ id ?_ ?_ id ?_ ?_ ?_ hlt
    (q1_of ?_) (q3_of ?_) (q4_of ?_) ?_ ?_ hc⟩
  · intro u hu; simp [hp, slView, hu.symm]
  · simp [hp, slView]
  · left; simp [slView]
  · intro u; cases k <;> simp [hp, obView]
  · intro u; cases k <;> simp [hp, clView]
  · intro b hb ho; rw [hsl.1] at ho; cases ho; exact absurd rfl hb
  · simp [hsl.2]
  · have e1 : upd g.pos t (g.pos t) = g.pos := by funext j; by_cases hj : j = t <;> simp [upd, hj]
    rw [e1]
    have tb := h.tb
    have hmem : t ∈ g.counted := (tb.count t).2 (by rw [hsl.2]; rfl)
    refine ⟨fun u j => ?_, fun u => ?_, fun u => ?_, tb.nodup.erase t, ?_⟩
    · have h1 := tb.tab u j
      simp only [goto, upd]; split
      · rename_i e; subst e; rw [hsl.2] at h1; exact h1
      · exact h1
    · simp only [upd]; split
      · simp [Sl.inTab]
      · exact tb.pos u
    · have := tb.count u
      rw [tb.nodup.mem_erase_iff]
      simp only [upd]; split
      · rename_i e; simp [e, Sl.counted]
      · rename_i e; simp [e, this]
    · have := tb.num
      have hl := List.length_erase_of_mem hmem
      have hpos : 0 < g.counted.length := List.length_pos_of_mem hmem
      simp only [goto]
      omega
  · simp only [goto, hcls']
    exact h.lg.same t .off (by simp [hsl.2, Sl.waited])
  · intro b hb _; exact .inl hb
  · intro hz; exact .inl hz
  · intros; simp
  · rw [hp]; cases k <;> rfl
  · rw [hp]; cases k <;> simp [scanOf, passed]
  · simp [over]
  · cases k <;> simp [PA, ByO, G.set, goto] at pa ⊢ <;> exact pa
  · rw [hcls']
    rw [hsl.2] at ti
    simp only [goto, upd_eq]
    obtain ⟨⟩ := ti
    constructor <;> grind

theorem good_rRel {max a x s g t k} (h : Inv max s g) (hp : s.pc a = .rRel t k) : Good max (step max a x s) := by
  have pa := h.pa a
  rw [hp] at pa
  have hsl := h.sl.at (x := Sl.off) (t := t) hp (by simp [slView])
  have ti := h.ti t
  have hlt := h.lt (t := t) (by simp [hsl.2])
  have hal := alive_of h (t := t) (by simp [hsl.2, Sl.held])
  have hrf := ti.ref hal
  simp only [step, hp, release]
  refine good_access hal ?_
  intro hc
  cases k with
  | create =>
    refine ⟨_, h.go (p' := .run) t .gone none (g.ob t) (g.obOwn t) (g.cl t) (g.clOwn t) rfl (by rw [hp]; rfl) rfl
      rfl rfl rfl rfl rfl id (fun _ _ => id) (fun u hu => by simp [back, goto, upd_ne _ _ hu]) (h.sl.move ?_ ?_ ?_) (h.ob.keep _ ?_) (h.cl.keep _ ?_)
      ?_ ?_ id ?_ ?_ id ?_ ?_ ?_ hlt (q1_of ?_) (q3_of ?_) (q4_of ?_) ?_ ?_ hc⟩
    · intro u hu; simp [hp, slView, hu.symm]
    · simp [hp, slView]
    · right; simp [slView, Sl.nobody]
    · intro u; simp [hp, obView]
    · intro u; simp [hp, clView]
    · intro b hb ho; rw [hsl.1] at ho; cases ho; exact absurd rfl hb
    · simp [hsl.2]
    · simp [hsl.2, Sl.inTab, Sl.counted]
    · simp [hsl.2, Sl.waited]
    · intro b hb _; exact .inl hb
    · intro hz; exact .inl hz
    · simp [Sl.inTab]
    · rw [hp]; rfl
    · rw [hp]; simp [scanOf, passed]
    · simp [over]
    · trivial
    · rw [hsl.2] at ti hrf
      obtain ⟨h1, h2⟩ : g.ob t = .none ∧ g.cl t = .none := pa
      simp only [back, goto, upd_eq]
      rw [h1, h2] at ti hrf ⊢
      obtain ⟨⟩ := ti
      constructor <;> grind
  | wait =>
    have hob := h.ob.at (x := Ob.taken) (t := t) hp (by simp [obView])
    refine ⟨_, h.go (p' := .dFlag t false) t .gone none (g.ob t) (g.obOwn t) (g.cl t) (g.clOwn t) rfl (by rw [hp]; rfl) rfl
      rfl rfl rfl rfl rfl id (fun _ _ => id) (fun u hu => by simp [back, goto, upd_ne _ _ hu]) (h.sl.move ?_ ?_ ?_) (h.ob.keep _ ?_) (h.cl.keep _ ?_)
      ?_ ?_ id ?_ ?_ id ?_ ?_ ?_ hlt (q1_of ?_) (q3_of ?_) (q4_of ?_) ?_ ?_ hc⟩
    · intro u hu; simp [hp, slView, hu.symm]
    · simp [hp, slView]
    · right; simp [slView, Sl.nobody]
    · intro u; simp [hp, obView]
    · intro u; simp [hp, clView]
    · intro b hb ho; rw [hsl.1] at ho; cases ho; exact absurd rfl hb
    · simp [hsl.2]
    · simp [hsl.2, Sl.inTab, Sl.counted]
    · simp [hsl.2, Sl.waited]
    · intro b hb _; exact .inl hb
    · intro hz; exact .inl hz
    · simp [Sl.inTab]
    · rw [hp]; rfl
    · rw [hp]; simp [scanOf, passed]
    · simp [over]
    · simp [PA]
    · rw [hsl.2] at ti hrf
      simp only [back, goto, upd_eq]
      rw [hob.2] at ti hrf ⊢
      obtain ⟨⟩ := ti
      constructor <;> grind
  | scan c =>
    have hob := h.cl.at (x := Cl.ext) (t := t) hp (by simp [clView])
    refine ⟨_, h.go (p' := .fRel t c) t .gone none (g.ob t) (g.obOwn t) (g.cl t) (g.clOwn t) rfl (by rw [hp]; rfl) rfl
      rfl rfl rfl rfl rfl id (fun _ _ => id) (fun u hu => by simp [back, goto, upd_ne _ _ hu]) (h.sl.move ?_ ?_ ?_) (h.ob.keep _ ?_) (h.cl.keep _ ?_)
      ?_ ?_ id ?_ ?_ id ?_ ?_ ?_ hlt (q1_of ?_) (q3_of ?_) (q4_of ?_) ?_ ?_ hc⟩
    · intro u hu; simp [hp, slView, hu.symm]
    · simp [hp, slView]
    · right; simp [slView, Sl.nobody]
    · intro u; simp [hp, obView]
    · intro u; simp [hp, clView]
    · intro b hb ho; rw [hsl.1] at ho; cases ho; exact absurd rfl hb
    · simp [hsl.2]
    · simp [hsl.2, Sl.inTab, Sl.counted]
    · simp [hsl.2, Sl.waited]
    · intro b hb _; exact .inl hb
    · intro hz; exact .inl hz
    · simp [Sl.inTab]
    · rw [hp]; rfl
    · rw [hp]; simp [scanOf, passed]
    · simp [over]
    · exact ⟨pa.1, by simp [G.set], pa.2⟩
    · rw [hsl.2] at ti hrf
      simp only [back, goto, upd_eq]
      rw [hob.2] at ti hrf ⊢
      obtain ⟨⟩ := ti
      constructor <;> grind

end Verif.Join
