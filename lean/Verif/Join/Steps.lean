/-
  All steps keep the invariant, and only one can fail.
-/
import Verif.Join.Frame
namespace Verif.Join

set_option linter.unusedSimpArgs false
set_option linter.unusedVariables false

/-- A step does not fail, and the invariant holds after it. -/
def Good (max : Nat) (r : Res) : Prop :=
  match r with
  | .ok s' => ¬ Hasty s' → ∃ g', Inv max s' g'
  | .no => True
  | .fails _ => False

theorem Own.at {α : Type} {view : Pc → Nat → Option α} {nobody pc own st} {a t : Nat} {p : Pc} {x : α}
    (h : Own view nobody pc own st) (hp : pc a = p) (hv : view p t = some x) : own t = some a ∧ st t = x :=
  h.o1 a t x (by rw [hp]; exact hv)

theorem Inv.lt {max s g t} (h : Inv max s g) (ht : g.sl t ≠ .unborn ∨ g.ob t ≠ .none ∨ g.cl t ≠ .none ∨ s.pc t ≠ .none) :
    t < s.next := by
  by_cases e : t < s.next
  · exact e
  · have := h.fresh t (Nat.le_of_not_lt e)
    simp [this.1, this.2.1, this.2.2.1, this.2.2.2] at ht

theorem good_access {max t s r} (ha : s.alive t = true) (h : Good max r) : Good max (access t s r) := by
  simp [access, ha, h]

theorem alive_of {max s g t} (h : Inv max s g) (ht : (g.sl t).held + (g.ob t).held + (g.cl t).held ≠ 0) : s.alive t = true :=
  (h.ti t).alive.2 ht

/-- What is left of `Inv.go` if nothing changes but where `a` is. -/
theorem Inv.pass {a max : Nat} {p' : Pc} {s s' : S} {g : G} (h : Inv max s g)
    (hpc : s'.pc = upd s.pc a p') (hl : cls (s.pc a) = .live) (hl' : cls p' = .live)
    (hs : s' = { s with pc := s'.pc, mutex := s'.mutex, canCreate := s'.canCreate })
    (hcan : s.canCreate = false → s'.canCreate = false)
    (hmut : ∀ b, b ≠ a → s.mutex = some b → s'.mutex = some b)
    (v1 : ∀ t, slView p' t = slView (s.pc a) t) (v2 : ∀ t, obView p' t = obView (s.pc a) t)
    (v3 : ∀ t, clView p' t = clView (s.pc a) t)
    (q1 : a = 0 → (ending (s.pc 0) = true → ending p' = true) ∧
      (ending p' = true → ending (s.pc 0) = true ∨ s'.canCreate = false))
    (q3 : a = 0 → ∀ c, scanOf p' = some c → c.all = true → c.np = 0 → ∀ j t, j < passed p' → s.slot j = some t →
      (scanOf (s.pc 0) = some c ∧ j < passed (s.pc 0)) ∨
      ((cls (s.pc t) = .unreg ∨ cls (s.pc t) = .dead) ∧ g.slOwn t ≠ none))
    (q4 : a = 0 → Join.over p' = true → Join.over (s.pc 0) = true ∨ ∀ j, s.slot j = none)
    (pa : PA s' g a p') (calm : ¬ Hasty s') : Inv max s' g := by
  have e : g.set 0 (g.sl 0) (g.slOwn 0) (g.ob 0) (g.obOwn 0) (g.cl 0) (g.clOwn 0) (g.pos 0) g.counted = g := by
    have u : ∀ {α : Type} (f : Nat → α), upd f 0 (f 0) = f := by
      intro α f; funext j; by_cases hj : j = 0 <;> simp [upd, hj]
    simp [G.set, u]
  have := Inv.go (s' := s') h 0 (g.sl 0) (g.slOwn 0) (g.ob 0) (g.obOwn 0) (g.cl 0) (g.clOwn 0) hpc hl hl'
    (by rw [hs]) (by rw [hs]) (by rw [hs]) (by rw [hs]) (by rw [hs]) hcan hmut (by rw [hs]; intros; simp)
    (h.sl.keep 0 v1) (h.ob.keep 0 v2) (h.cl.keep 0 v3) (fun _ _ _ => ⟨rfl, id, id⟩) id id ⟨rfl, rfl⟩ (fun h1 h2 => ⟨h1, h2⟩) id
    (fun b hb _ => .inl hb) (fun hb => .inl hb) (fun _ => id) h.next q1 q3 q4 (by rw [e]; exact pa)
    (by rw [hs]; exact h.ti 0) calm
  rw [e] at this
  exact this

theorem q1_of {a : Nat} {s : S} {p' : Pc} {P : Prop} (h : ending (s.pc a) = ending p') :
    a = 0 → (ending (s.pc 0) = true → ending p' = true) ∧ (ending p' = true → ending (s.pc 0) = true ∨ P) := by
  intro e; subst e; rw [h]; exact ⟨id, .inl⟩

theorem q3_of {a : Nat} {s : S} {g : G} {p' : Pc} {slot : Nat → Option Nat}
    (h : ∀ c, scanOf p' = some c → c.all = true → c.np = 0 → scanOf (s.pc a) = some c ∧ passed p' ≤ passed (s.pc a)) :
    a = 0 → ∀ c, scanOf p' = some c → c.all = true → c.np = 0 → ∀ j t, j < passed p' → slot j = some t →
      (scanOf (s.pc 0) = some c ∧ j < passed (s.pc 0)) ∨
      ((cls (s.pc t) = .unreg ∨ cls (s.pc t) = .dead) ∧ g.slOwn t ≠ none) := by
  intro e c h1 h2 h3 j t h4 h5
  subst e
  have := h c h1 h2 h3
  exact .inl ⟨this.1, by omega⟩

theorem q4_of {a : Nat} {s : S} {p' : Pc} {P : Prop} (h : over p' = true → over (s.pc a) = true) :
    a = 0 → over p' = true → over (s.pc 0) = true ∨ P := by
  intro e ho; subst e; exact .inl (h ho)

theorem not_quiet {s : S} {a : Nat} {p : Pc} (hp : s.pc a = p) (hf : finished p = false) (he : ending p = false) : ¬ Quiet s.pc := by
  intro q
  by_cases e : a = 0
  · subst e; have := q.1; rw [hp, he] at this; cases this
  · have := q.2 a e; rw [hp, hf] at this; cases this

theorem good_jSelf {max a x s g t k} (h : Inv max s g) (hp : s.pc a = .jSelf t k) : Good max (step max a x s) := by
  have pa := h.pa a
  rw [hp] at pa
  have hsl := h.sl.at (x := Sl.claimed) (t := t) hp (by simp [slView])
  simp only [step, hp]
  refine good_access (alive_of h (by simp [hsl.2, Sl.held])) fun hc => ?_
  rw [if_neg pa.1] at hc ⊢
  refine ⟨g, h.pass (p' := .jOs t k) rfl (by rw [hp]; rfl) rfl rfl id (fun _ _ => id) ?_ ?_ ?_ (q1_of ?_) (q3_of ?_) (q4_of ?_) pa.2 hc⟩
  · intro u; simp [hp, slView]
  · intro u; cases k <;> simp [hp, obView]
  · intro u; cases k <;> simp [hp, clView]
  · rw [hp]; cases k <;> rfl
  · rw [hp]; cases k <;> simp [scanOf, passed]
  · simp [over]

theorem good_jWait {max a x s g t k} (h : Inv max s g) (hp : s.pc a = .jWait t k) : Good max (step max a x s) := by
  have pa := h.pa a
  rw [hp] at pa
  simp only [step, hp]
  split
  case isFalse => trivial
  case isTrue hd =>
  intro hc
  have hta : t ≠ a := by intro e; subst e; rw [hp] at hd; cases hd
  refine ⟨g, h.pass (p' := .jRes t k) rfl (by rw [hp]; rfl) rfl rfl id (fun _ _ => id) ?_ ?_ ?_ (q1_of ?_) (q3_of ?_) (q4_of ?_) ?_ hc⟩
  · intro u; simp [hp, slView]
  · intro u; cases k <;> simp [hp, obView]
  · intro u; cases k <;> simp [hp, clView]
  · rw [hp]; cases k <;> rfl
  · rw [hp]; cases k <;> simp [scanOf, passed]
  · simp [over]
  · exact ⟨by simp only [goto, upd_ne _ _ hta]; exact hd, pa⟩

theorem good_jOs {max a x s g t k} (h : Inv max s g) (hp : s.pc a = .jOs t k) : Good max (step max a x s) := by
  have pa := h.pa a
  rw [hp] at pa
  have hsl := h.sl.at (x := Sl.claimed) (t := t) hp (by simp [slView])
  have ti := h.ti t
  have hlt := h.lt (t := t) (by simp [hsl.2])
  have hw : s.waited t = false := by
    cases hw : s.waited t with
    | false => rfl
    | true => have := ti.waited hw; simp [hsl.2, Sl.waited] at this
  simp only [step, hp]
  refine good_access (alive_of h (by simp [hsl.2, Sl.held])) ?_
  simp only [hw, Bool.false_eq_true, if_false]
  intro hc
  refine ⟨_, h.go (p' := .jWait t k) t .os (some a) (g.ob t) (g.obOwn t) (g.cl t) (g.clOwn t) rfl (by rw [hp]; rfl) rfl
    rfl rfl rfl rfl rfl id (fun _ _ => id) (fun u hu => by simp [goto, upd_ne _ _ hu]) (h.sl.move ?_ ?_ ?_) (h.ob.keep _ ?_) (h.cl.keep _ ?_)
    ?_ ?_ id ?_ ?_ id ?_ ?_ ?_ hlt (q1_of ?_) (q3_of ?_) (q4_of ?_) ?_ ?_ hc⟩
  · intro u hu; simp [hp, slView, hu.symm]
  · simp [hp, slView]
  · left; simp [slView]
  · intro u; cases k <;> simp [hp, obView]
  · intro u; cases k <;> simp [hp, clView]
  · intro b hb ho; rw [hsl.1] at ho; cases ho; exact absurd rfl hb
  · simp [hsl.2]
  · simp [hsl.2, Sl.inTab, Sl.counted]
  · simp [hsl.2, Sl.waited]
  · intro b hb _; exact .inl hb
  · intro hz; exact .inl hz
  · intros; simp
  · rw [hp]; cases k <;> rfl
  · rw [hp]; cases k <;> simp [scanOf, passed]
  · simp [over]
  · cases k <;> simp [PA, ByJ, G.set] at pa ⊢; exact pa
  · rw [hsl.2] at ti
    simp only [goto, upd_eq]
    obtain ⟨⟩ := ti
    constructor <;> grind

end Verif.Join
