/-
  What follows from the invariant.
-/
import Verif.Join.Proof
namespace Verif.Join

set_option linter.unusedSimpArgs false
set_option linter.unusedVariables false

/-- The only step which can fail. -/
theorem calm_fails {max s a x w} (h : Calm max s) (hf : step max a x s = .fails w) :
    w = .freed ∧ ∃ t, s.pc a = .wCheck t ∧ s.alive t = false := by
  obtain ⟨g, hg⟩ := inv_calm h
  by_cases hd : ∃ t, s.pc a = .wCheck t ∧ s.alive t = false
  · obtain ⟨t, h1, h2⟩ := hd
    rw [step_wCheck_dead h1 h2] at hf
    cases hf
    exact ⟨rfl, t, h1, h2⟩
  · have := good_step (a := a) (x := x) hg (by
      intro t hp
      cases e : s.alive t with
      | true => rfl
      | false => exact absurd ⟨t, hp, e⟩ hd)
    rw [hf] at this
    exact this.elim

theorem calm_delivered {max s} (h : Calm max s) : Delivered s.log := by
  obtain ⟨g, hg⟩ := inv_calm h
  exact ⟨hg.lg.gaveOnce, hg.lg.gotOnce, fun a t r hr => (hg.lg.got a t r hr).2.2⟩

theorem calm_ended {max s} (h : Calm max s) (hp : s.pc 0 = .destroy) : ∀ t, t ≠ 0 → s.pc t = .none ∨ s.pc t = .dead := by
  obtain ⟨g, hg⟩ := inv_calm h
  exact all_ended hg (hg.tb.empty.1 (hg.en.over (by rw [hp]; rfl)))

theorem calm_released {max s} (h : Calm max s) (hp : s.pc 0 = .destroy) (hpr : ∀ t, s.priv t = false) :
    ∀ t, s.alive t = false := by
  intro t
  have hall := calm_ended h hp
  obtain ⟨g, hg⟩ := inv_calm h
  have htab := hg.tb.empty.1 (hg.en.over (by rw [hp]; rfl)) t
  have hpc : ∀ a, s.pc a = .destroy ∨ s.pc a = .none ∨ s.pc a = .dead := by
    intro a
    by_cases e : a = 0
    · rw [e]; exact .inl hp
    · exact .inr (hall a e)
  have h1 : (g.sl t).nobody = true := by
    cases e : g.slOwn t with
    | none => exact hg.sl.o3 t e
    | some b =>
      have := hg.sl.o2 b t e
      rcases hpc b with h1 | h1 | h1 <;> rw [h1] at this <;> cases this
  have h2 : (g.ob t).nobody = true := by
    cases e : g.obOwn t with
    | none => exact hg.ob.o3 t e
    | some b =>
      have := hg.ob.o2 b t e
      rcases hpc b with h1 | h1 | h1 <;> rw [h1] at this <;> cases this
  have h3 : (g.cl t).nobody = true := by
    cases e : g.clOwn t with
    | none => exact hg.cl.o3 t e
    | some b =>
      have := hg.cl.o2 b t e
      rcases hpc b with h1 | h1 | h1 <;> rw [h1] at this <;> cases this
  have hti := hg.ti t
  have hob : g.ob t ≠ .obj := by
    intro e
    have := hti.priv.2 e
    rw [hpr t] at this; cases this
  cases hal : s.alive t with
  | false => rfl
  | true =>
    have := hti.alive.1 hal
    revert htab h1 h2 h3 hob this
    cases g.sl t <;> cases g.ob t <;> cases g.cl t <;>
      simp [Sl.inTab, Sl.nobody, Ob.nobody, Cl.nobody, Sl.held, Ob.held, Cl.held]

/-- How the private pointer of a thread object which somebody has looked at can go away. -/
theorem step_priv {max a x s s'} (h : step max a x s = .ok s') (b t : Nat) (hb : s'.pc b = .wCheck t) :
    s'.priv t = true ∨ (s.pc b = .wCheck t ∧
      (s'.priv t = s.priv t ∨ (s.pc a = .wSwap t ∧ a ≠ b) ∨ inUse t s = false ∨ s.pc a = .destroy)) := by
  cases hp : s.pc a <;>
    simp only [step, hp, allocSlot, setFlag, addRef, release, back, scanEnd, look, nextSlot, afterJoin, call, readResult, access, goto] at h <;>
    (repeat' split at h) <;>
    first
    | (cases h; done)
    | (injection h with h
       subst h
       simp only [upd] at hb ⊢
       grind)

theorem orderly_calm {max s} (h : Orderly max s) : Calm max s := by
  induction h with
  | init => exact .init
  | step h1 h2 h3 h4 ih => exact .step ih h2 h3

theorem orderly_lone {max s} (h : Orderly max s) : ¬ Contended s := by
  cases h with
  | init =>
    rintro ⟨a, b, t, _, h1, _⟩
    simp only [Asks, init] at h1
    split at h1 <;> simp at h1
  | step h1 h2 h3 h4 => exact h4

theorem orderly_priv {max s} (h : Orderly max s) : ∀ b t, s.pc b = .wCheck t → s.priv t = true := by
  induction h with
  | init =>
    intro b t h1
    simp only [init] at h1
    split at h1 <;> cases h1
  | step h1 h2 h3 h4 ih =>
    rename_i s s' a x
    intro b t hb
    rcases step_priv h2 b t hb with h5 | ⟨h5, h6⟩
    · exact h5
    rcases h6 with h6 | ⟨h6, h7⟩ | h6 | h6
    · rw [h6]; exact ih b t h5
    · exact absurd ⟨a, b, t, h7, .inr h6, .inl h5⟩ (orderly_lone h1)
    · obtain ⟨g, hg⟩ := inv_calm (orderly_calm h1)
      have hlt := hg.lt (t := b) (.inr (.inr (.inr (by rw [h5]; simp))))
      have : inUse t s = true := by
        simp only [inUse, List.any_eq_true, List.mem_range]
        exact ⟨b, hlt, by rw [h5]; simp⟩
      rw [h6] at this; cases this
    · obtain ⟨g, hg⟩ := inv_calm (orderly_calm h1)
      have ha : a = 0 := by have := hg.pa a; rw [h6] at this; exact this
      subst ha
      by_cases e : b = 0
      · rw [e, h6] at h5; cases h5
      · rcases calm_ended (orderly_calm h1) h6 b e with h7 | h7 <;> rw [h7] at h5 <;> cases h5

/-- Nothing fails. -/
theorem orderly_safe {max s a x w} (h : Orderly max s) : step max a x s ≠ .fails w := by
  intro hf
  obtain ⟨_, t, h1, h2⟩ := calm_fails (orderly_calm h) hf
  have hpr := orderly_priv h a t h1
  obtain ⟨g, hg⟩ := inv_calm (orderly_calm h)
  have hob := (hg.ti t).priv.1 hpr
  have := alive_of hg (t := t) (by rw [hob]; simp [Ob.held])
  rw [h2] at this; cases this

end Verif.Join
