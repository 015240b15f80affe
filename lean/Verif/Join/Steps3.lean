/-
  All steps keep the invariant, and only one can fail: thread objects.
-/
import Verif.Join.Steps2
namespace Verif.Join

set_option linter.unusedSimpArgs false
set_option linter.unusedVariables false

/-- Somebody who has the place of a thread in its view. -/
theorem owner_cases {max s g t b} (h : Inv max s g) (ho : g.slOwn t = some b) :
    (g.sl t).early = true ∨ g.cl t ≠ .none ∨ g.ob t = .taken ∨ (g.ob t = .none ∧ g.cl t = .none) := by
  have h2 := h.sl.o2 b t ho
  have pa := h.pa b
  have hob := fun x => h.ob.o1 b t x
  have hcl := fun x => h.cl.o1 b t x
  generalize g.sl t = x at *
  clear h
  generalize s.pc b = p at *
  cases p with
  | cSlot u => left; simp only [slView] at h2; split at h2 <;> cases h2; rfl
  | cCreate u => left; simp only [slView] at h2; split at h2 <;> cases h2; rfl
  | fRef u c =>
    right; left
    simp only [slView] at h2
    split at h2
    · rename_i e; have := hcl .cas (by simp [clView, e]); rw [this.2]; simp
    · cases h2
  | jSelf u k | jOs u k | jWait u k | jRes u k | jFlag u k =>
    right
    simp only [slView] at h2
    split at h2
    · rename_i e
      subst e
      cases k with
      | create => simp [PA, ByJ] at pa
      | wait => right; left; exact (hob .taken (by simp [obView])).2
      | scan c => left; rw [(hcl .ext (by simp [clView])).2]; simp
    · cases h2
  | rIdx u k | rSlot u i k | rNum u k | rRel u k =>
    right
    simp only [slView] at h2
    split at h2
    · rename_i e
      subst e
      cases k with
      | create => right; right; simp [PA, ByR, ByO] at pa; first | exact pa | exact pa.2
      | wait => right; left; exact (hob .taken (by simp [obView])).2
      | scan c => left; rw [(hcl .ext (by simp [clView])).2]; simp
    · cases h2
  | _ => simp [slView] at h2

theorem obView_obj (p : Pc) (t : Nat) : obView p t ≠ some .obj := by
  cases p with
  | jSelf u k | jOs u k | jWait u k | jRes u k | jFlag u k | rIdx u k | rSlot u i k | rNum u k | rRel u k =>
    cases k <;> simp [obView]
  | _ => simp [obView]

/-- While there is an object which has the pointer, or will have it, nobody waits for the thread. -/
theorem free_of_ob {max s g t} (h : Inv max s g) (h1 : g.ob t ≠ .none) (h2 : (g.ob t).past = false) (hq : ¬ Quiet s.pc) :
    g.sl t = .free ∧ g.slOwn t = none := by
  have hcl : g.cl t = .none := by
    by_cases e : g.cl t = .none
    · exact e
    · rcases h.en.claimed t e with h3 | h3
      · revert h2 h3; cases g.ob t <;> simp [Ob.past, Ob.disowned]
      · exact absurd h3 hq
  have ti := h.ti t
  have hearly : (g.sl t).early = false := by
    cases he : (g.sl t).early with
    | false => rfl
    | true => exact absurd (ti.create he).1 h1
  cases ho : g.slOwn t with
  | some b =>
    exfalso
    rcases owner_cases h ho with h3 | h3 | h3 | h3
    · rw [hearly] at h3; cases h3
    · exact h3 hcl
    · rw [h3] at h2; cases h2
    · exact h1 h3.1
  | none =>
    refine ⟨?_, rfl⟩
    have h3 := h.sl.o3 t ho
    have h4 := ti.gone
    rw [hcl] at h4
    revert h3 h4 hearly
    cases g.sl t <;> simp [Sl.nobody, Sl.early, h1, h2]

theorem good_cRef {max a x s g t} (h : Inv max s g) (hp : s.pc a = .cRef t) : Good max (step max a x s) := by
  have hob := h.ob.at (x := Ob.pre) (t := t) hp (by simp [obView])
  have hf := free_of_ob h (t := t) (by simp [hob.2]) (by simp [hob.2, Ob.past]) (not_quiet hp rfl rfl)
  have ti := h.ti t
  have hlt := h.lt (t := t) (by simp [hob.2])
  have hal := alive_of h (t := t) (by simp [hf.1, Sl.held])
  have hrf := ti.ref hal
  simp only [step, hp, addRef]
  refine good_access hal ?_
  intro hc
  refine ⟨_, h.go (p' := .cPriv t) t (g.sl t) (g.slOwn t) .mine (some a) (g.cl t) (g.clOwn t) rfl (by rw [hp]; rfl) rfl
    rfl rfl rfl rfl rfl id (fun _ _ => id) (fun u hu => by simp [goto, upd_ne _ _ hu]) (h.sl.keep _ ?_) (h.ob.move ?_ ?_ ?_) (h.cl.keep _ ?_)
    ?_ id ?_ ⟨rfl, rfl⟩ (fun h1 h2 => ⟨h1, h2⟩) ?_ (fun b hb _ => .inl hb) (fun hz => .inl hz) (fun _ => id) hlt
    (q1_of ?_) (q3_of ?_) (q4_of ?_) ?_ ?_ hc⟩
  · intro u; simp [hp, slView]
  · intro u hu; simp [hp, obView, hu.symm]
  · simp [hp, obView]
  · left; simp [obView]
  · intro u; simp [hp, clView]
  · intro b hb ho; rw [hf.2] at ho; cases ho
  · simp [hob.2, Ob.past]
  · simp [hob.2, Ob.disowned]
  · rw [hp]; rfl
  · rw [hp]; simp [scanOf, passed]
  · simp [over]
  · trivial
  · rw [hob.2] at ti hrf
    simp only [goto, upd_eq]
    obtain ⟨⟩ := ti
    constructor <;> grind

theorem good_cPriv {max a x s g t} (h : Inv max s g) (hp : s.pc a = .cPriv t) : Good max (step max a x s) := by
  have hob := h.ob.at (x := Ob.mine) (t := t) hp (by simp [obView])
  have hf := free_of_ob h (t := t) (by simp [hob.2]) (by simp [hob.2, Ob.past]) (not_quiet hp rfl rfl)
  have ti := h.ti t
  have hlt := h.lt (t := t) (by simp [hob.2])
  simp only [step, hp]
  intro hc
  refine ⟨_, h.go (p' := .run) t (g.sl t) (g.slOwn t) .obj none (g.cl t) (g.clOwn t) rfl (by rw [hp]; rfl) rfl
    rfl rfl rfl rfl rfl id (fun _ _ => id) (fun u hu => by simp [goto, upd_ne _ _ hu]) (h.sl.keep _ ?_) (h.ob.move ?_ ?_ ?_) (h.cl.keep _ ?_)
    ?_ id ?_ ⟨rfl, rfl⟩ (fun h1 h2 => ⟨h1, h2⟩) ?_ (fun b hb _ => .inl hb) (fun hz => .inl hz) (fun _ => id) hlt
    (q1_of ?_) (q3_of ?_) (q4_of ?_) ?_ ?_ hc⟩
  · intro u; simp [hp, slView]
  · intro u hu; simp [hp, obView, hu.symm]
  · simp [hp, obView]
  · right; simp [obView, Ob.nobody]
  · intro u; simp [hp, clView]
  · intro b hb ho; rw [hf.2] at ho; cases ho
  · simp [hob.2, Ob.past]
  · simp [hob.2, Ob.disowned]
  · rw [hp]; rfl
  · rw [hp]; simp [scanOf, passed]
  · simp [over]
  · trivial
  · rw [hob.2, hf.1] at ti
    rw [hf.1]
    simp only [goto, upd_eq]
    obtain ⟨⟩ := ti
    constructor <;> grind

/-- Thread `a` takes the pointer of the thread object, and disowns the thread. -/
theorem good_take {max a s g t e} (h : Inv max s g) (hl : cls (s.pc a) = .live) (hpr : s.priv t = true)
    (v1 : ∀ u, slView (s.pc a) u = none) (v2 : ∀ u, obView (s.pc a) u = none) (v3 : ∀ u, clView (s.pc a) u = none)
    (q1 : ending (s.pc a) = e) (q4 : over (s.pc a) = e) (pa : e = true → a = 0)
    (hc : ¬ Hasty (goto a (.dFlag t e) { s with obj := upd s.obj t false, priv := upd s.priv t false })) :
    ∃ g', Inv max (goto a (.dFlag t e) { s with obj := upd s.obj t false, priv := upd s.priv t false }) g' := by
  have ti := h.ti t
  have hob := ti.priv.1 hpr
  have hlt := h.lt (t := t) (by simp [hob])
  have hoo : g.obOwn t = none := by
    cases ho : g.obOwn t with
    | none => rfl
    | some b =>
      have := h.ob.o2 b t ho
      rw [hob] at this
      exact absurd this (obView_obj _ _)
  refine ⟨_, h.go (p' := .dFlag t e) t (g.sl t) (g.slOwn t) .taken (some a) (g.cl t) (g.clOwn t) rfl hl rfl
    rfl rfl rfl rfl rfl id (fun _ _ => id) (fun u hu => by simp [goto, upd_ne _ _ hu]) (h.sl.keep _ ?_) (h.ob.move ?_ ?_ ?_) (h.cl.keep _ ?_)
    ?_ id ?_ ⟨rfl, rfl⟩ (fun h1 h2 => ⟨h1, h2⟩) ?_ (fun b hb _ => .inl hb) (fun hz => .inl hz) (fun _ => id) hlt
    (q1_of ?_) (q3_of ?_) (q4_of ?_) ?_ ?_ hc⟩
  · intro u; rw [v1 u]; rfl
  · intro u hu; rw [v2 u]; simp [obView, hu.symm]
  · intro _; exact hoo
  · left; simp [obView]
  · intro u; rw [v3 u]; rfl
  · intro b hb ho; rw [hob]; simp
  · simp [hob, Ob.past]
  · simp [hob, Ob.disowned]
  · rw [q1]; cases e <;> rfl
  · simp [scanOf]
  · rw [q4]; cases e <;> simp [over]
  · exact pa
  · rw [hob] at ti
    simp only [goto, upd_eq]
    obtain ⟨⟩ := ti
    constructor <;> grind

theorem good_dFlag {max a x s g t e} (h : Inv max s g) (hp : s.pc a = .dFlag t e) : Good max (step max a x s) := by
  have pa := h.pa a
  rw [hp] at pa
  have hob := h.ob.at (x := Ob.taken) (t := t) hp (by simp [obView])
  have ti := h.ti t
  have hlt := h.lt (t := t) (by simp [hob.2])
  have hd : (s.flags t).disowned = false := by rw [ti.disowned, hob.2]; rfl
  simp only [step, hp, setFlag]
  refine good_access (alive_of h (by simp [hob.2, Ob.held])) ?_
  simp only [hd, Bool.false_eq_true, if_false]
  intro hc
  refine ⟨_, h.go (p' := .dRel t e) t (g.sl t) (g.slOwn t) .last (some a) (g.cl t) (g.clOwn t) rfl (by rw [hp]; rfl) rfl
    rfl rfl rfl rfl rfl id (fun _ _ => id) (fun u hu => by simp [goto, upd_ne _ _ hu]) (h.sl.keep _ ?_) (h.ob.move ?_ ?_ ?_) (h.cl.keep _ ?_)
    ?_ id ?_ ⟨rfl, rfl⟩ (fun h1 h2 => ⟨h1, h2⟩) ?_ (fun b hb _ => .inl hb) (fun hz => .inl hz) (fun _ => id) hlt
    (q1_of ?_) (q3_of ?_) (q4_of ?_) ?_ ?_ hc⟩
  · intro u; simp [hp, slView]
  · intro u hu; simp [hp, obView, hu.symm]
  · simp [hp, obView]
  · left; simp [obView]
  · intro u; simp [hp, clView]
  · intro b hb ho; rw [hob.2]; simp
  · simp [Ob.past]
  · simp [Ob.disowned]
  · rw [hp]; cases e <;> rfl
  · rw [hp]; simp [scanOf, passed]
  · rw [hp]; cases e <;> simp [over]
  · exact pa
  · rw [hob.2] at ti
    simp only [goto, upd_eq]
    obtain ⟨⟩ := ti
    constructor <;> grind

theorem good_dRel {max a x s g t e} (h : Inv max s g) (hp : s.pc a = .dRel t e) : Good max (step max a x s) := by
  have pa := h.pa a
  rw [hp] at pa
  have hob := h.ob.at (x := Ob.last) (t := t) hp (by simp [obView])
  have ti := h.ti t
  have hlt := h.lt (t := t) (by simp [hob.2])
  have hal := alive_of h (t := t) (by simp [hob.2, Ob.held])
  have hrf := ti.ref hal
  simp only [step, hp, release]
  refine good_access hal ?_
  intro hc
  refine ⟨_, h.go (p' := if e then .destroy else .run) t (g.sl t) (g.slOwn t) .gone none (g.cl t) (g.clOwn t) rfl (by rw [hp]; rfl)
    (by cases e <;> rfl)
    rfl rfl rfl rfl rfl id (fun _ _ => id) (fun u hu => by simp [goto, upd_ne _ _ hu]) (h.sl.keep _ ?_) (h.ob.move ?_ ?_ ?_) (h.cl.keep _ ?_)
    ?_ id ?_ ⟨rfl, rfl⟩ (fun h1 h2 => ⟨h1, h2⟩) ?_ (fun b hb _ => .inl hb) (fun hz => .inl hz) (fun _ => id) hlt
    (q1_of ?_) (q3_of ?_) (q4_of ?_) ?_ ?_ hc⟩
  · intro u; cases e <;> simp [hp, slView]
  · intro u hu; cases e <;> simp [hp, obView, hu.symm]
  · simp [hp, obView]
  · right; cases e <;> simp [obView, Ob.nobody]
  · intro u; cases e <;> simp [hp, clView]
  · intro b hb ho; rw [hob.2]; simp
  · simp [Ob.past]
  · simp [Ob.disowned]
  · rw [hp]; cases e <;> rfl
  · rw [hp]; cases e <;> simp [scanOf, passed]
  · rw [hp]; cases e <;> simp [over]
  · cases e
    · trivial
    · exact pa rfl
  · rw [hob.2] at ti hrf
    simp only [goto, upd_eq]
    obtain ⟨⟩ := ti
    constructor <;> grind

theorem good_wSwap {max a x s g t} (h : Inv max s g) (hp : s.pc a = .wSwap t) : Good max (step max a x s) := by
  have pa := h.pa a
  rw [hp] at pa
  simp only [step, hp]
  split
  case isFalse =>
    intro hc
    refine ⟨g, h.pass (p' := .run) rfl (by rw [hp]; rfl) rfl rfl id (fun _ _ => id) ?_ ?_ ?_ (q1_of ?_) (q3_of ?_) (q4_of ?_) trivial hc⟩
    · intro u; simp [hp, slView]
    · intro u; simp [hp, obView]
    · intro u; simp [hp, clView]
    · rw [hp]; rfl
    · simp [scanOf]
    · simp [over]
  case isTrue hpr =>
  intro hc
  have ti := h.ti t
  have hob := ti.priv.1 hpr
  have hf := free_of_ob h (t := t) (by simp [hob]) (by simp [hob, Ob.past]) (not_quiet hp rfl rfl)
  have hlt := h.lt (t := t) (by simp [hob])
  have hat : a ≠ t := by
    rcases pa with h1 | h1
    · exact h1
    · rw [hob] at h1; cases h1
  have hoo : g.obOwn t = none := by
    cases ho : g.obOwn t with
    | none => rfl
    | some b =>
      have := h.ob.o2 b t ho
      rw [hob] at this
      exact absurd this (obView_obj _ _)
  refine ⟨_, h.go (p' := .jSelf t .wait) t .claimed (some a) .taken (some a) (g.cl t) (g.clOwn t) rfl (by rw [hp]; rfl) rfl
    rfl rfl rfl rfl rfl id (fun _ _ => id) (fun u hu => by simp [goto, upd_ne _ _ hu]) (h.sl.move ?_ ?_ ?_) (h.ob.move ?_ ?_ ?_) (h.cl.keep _ ?_)
    ?_ ?_ ?_ ?_ ?_ ?_ (fun b hb _ => .inl hb) (fun hz => .inl hz) ?_ hlt
    (q1_of ?_) (q3_of ?_) (q4_of ?_) ?_ ?_ hc⟩
  · intro u hu; simp [hp, slView, hu.symm]
  · intro _; exact hf.2
  · left; simp [slView]
  · intro u hu; simp [hp, obView, hu.symm]
  · intro _; exact hoo
  · left; simp [obView]
  · intro u; simp [hp, clView]
  · intro b hb ho; rw [hf.2] at ho; cases ho
  · simp [hf.1]
  · simp [hob, Ob.past]
  · simp [hf.1, Sl.inTab, Sl.counted]
  · simp [hf.1, Sl.waited]
  · simp [hob, Ob.disowned]
  · intros; simp
  · rw [hp]; rfl
  · simp [scanOf]
  · simp [over]
  · exact ⟨hat, trivial⟩
  · rw [hob, hf.1] at ti
    simp only [goto, upd_eq]
    obtain ⟨⟩ := ti
    constructor <;> grind

end Verif.Join
