/-
  The invariant holds in all states, and what follows from it.
-/
import Verif.Join.Steps5
namespace Verif.Join

set_option linter.unusedSimpArgs false
set_option linter.unusedVariables false

theorem good_run {max a x s g} (h : Inv max s g) (hp : s.pc a = .run) : Good max (step max a x s) := by
  simp only [step, hp]
  cases x with
  | go => trivial
  | fail => trivial
  | async => exact good_async h hp
  | wait t =>
    simp only [call]
    split
    case isFalse => trivial
    case isTrue ho =>
    split
    · intro hc
      refine ⟨g, h.pass (p' := .wCheck t) rfl (by rw [hp]; rfl) rfl rfl id (fun _ _ => id) ?_ ?_ ?_ (q1_of ?_) (q3_of ?_) (q4_of ?_) trivial hc⟩
      · intro u; simp [hp, slView]
      · intro u; simp [hp, obView]
      · intro u; simp [hp, clView]
      · rw [hp]; rfl
      · simp [scanOf]
      · simp [over]
    · rename_i hpr
      intro hc
      have ti := h.ti t
      have hpast : (g.ob t).past = true := by
        rcases ti.obj ho with h1 | h1
        · exact absurd (ti.priv.2 h1) hpr
        · exact h1
      refine ⟨g, h.pass (p' := .wSwap t) rfl (by rw [hp]; rfl) rfl rfl id (fun _ _ => id) ?_ ?_ ?_ (q1_of ?_) (q3_of ?_) (q4_of ?_) (.inr hpast) hc⟩
      · intro u; simp [hp, slView]
      · intro u; simp [hp, obView]
      · intro u; simp [hp, clView]
      · rw [hp]; rfl
      · simp [scanOf]
      · simp [over]
  | collect t =>
    simp only [call]
    split
    case isFalse => trivial
    case isTrue ho =>
    split
    · rename_i hpr
      intro hc
      exact good_take h (by rw [hp]; rfl) hpr (by intro u; rw [hp]; rfl) (by intro u; rw [hp]; rfl) (by intro u; rw [hp]; rfl)
        (by rw [hp]; rfl) (by rw [hp]; rfl) (by simp) hc
    · intro hc
      have ti := h.ti t
      have hob : s.obj t = true := by simp at ho; exact ho.1
      have hlt := h.lt (t := t) (by
        right; left; intro e
        have := ti.obj hob
        rw [e] at this; simp [Ob.past] at this)
      refine ⟨_, h.go (s' := { s with obj := upd s.obj t false }) (a := a) (p' := .run) t (g.sl t) (g.slOwn t) (g.ob t) (g.obOwn t) (g.cl t) (g.clOwn t) ?_ (by rw [hp]; rfl) rfl
        rfl rfl rfl rfl rfl id (fun _ _ => id) (fun u hu => by simp [goto, upd_ne _ _ hu]) (h.sl.keep _ ?_) (h.ob.keep _ ?_) (h.cl.keep _ ?_)
        (fun _ _ _ => ⟨rfl, id, id⟩) id id ⟨rfl, rfl⟩ (fun h1 h2 => ⟨h1, h2⟩) id (fun b hb _ => .inl hb) (fun hz => .inl hz) (fun _ => id) hlt
        (q1_of ?_) (q3_of ?_) (q4_of ?_) ?_ ?_ hc⟩
      · funext j
        by_cases e : j = a
        · rw [e, upd_eq]; exact hp
        · rw [upd_ne _ _ e]
      · intro u; simp [hp]
      · intro u; simp [hp]
      · intro u; simp [hp]
      · rw [hp]
      · simp [scanOf]
      · simp [over]
      · trivial
      · simp only [upd_eq]
        obtain ⟨⟩ := ti
        constructor <;> grind
  | join =>
    intro hc
    refine ⟨g, h.pass (p' := .fNum false) rfl (by rw [hp]; rfl) rfl rfl id (fun _ _ => id) ?_ ?_ ?_ (q1_of ?_) (q3_of ?_) (q4_of ?_) ?_ hc⟩
    · intro u; simp [hp, slView]
    · intro u; simp [hp, obView]
    · intro u; simp [hp, clView]
    · rw [hp]; rfl
    · simp [scanOf]
    · simp [over]
    · simp [PA]
  | give r =>
    simp only [call]
    split
    · trivial
    · rename_i ha
      exact good_give h ha (.inl hp)
  | exit =>
    simp only [call]
    split
    · rename_i ha
      intro hc
      refine ⟨g, h.pass (p' := .fBegin) rfl (by rw [hp]; rfl) rfl rfl id (fun _ _ => id) ?_ ?_ ?_ (q1_of ?_) (q3_of ?_) (q4_of ?_) ha hc⟩
      · intro u; simp [hp, slView]
      · intro u; simp [hp, obView]
      · intro u; simp [hp, clView]
      · rw [hp]; rfl
      · simp [scanOf]
      · simp [over]
    · trivial

theorem good_destroy {max a x s g} (h : Inv max s g) (hp : s.pc a = .destroy) : Good max (step max a x s) := by
  have pa : a = 0 := by have := h.pa a; rw [hp] at this; exact this
  simp only [step, hp]
  split
  · split
    · rename_i hpr
      intro hc
      exact good_take h (by rw [hp]; rfl) hpr (by intro u; rw [hp]; rfl) (by intro u; rw [hp]; rfl) (by intro u; rw [hp]; rfl)
        (by rw [hp]; rfl) (by rw [hp]; rfl) (fun _ => pa) hc
    · trivial
  · trivial

theorem good_wCheck {max a x s g t} (h : Inv max s g) (hp : s.pc a = .wCheck t) (hal : s.alive t = true) : Good max (step max a x s) := by
  simp only [step, hp]
  refine good_access hal ?_
  split
  · intro hc
    refine ⟨g, h.pass (p' := .run) rfl (by rw [hp]; rfl) rfl rfl id (fun _ _ => id) ?_ ?_ ?_ (q1_of ?_) (q3_of ?_) (q4_of ?_) trivial hc⟩
    · intro u; simp [hp, slView]
    · intro u; simp [hp, obView]
    · intro u; simp [hp, clView]
    · rw [hp]; rfl
    · simp [scanOf]
    · simp [over]
  · rename_i hat
    intro hc
    refine ⟨g, h.pass (p' := .wSwap t) rfl (by rw [hp]; rfl) rfl rfl id (fun _ _ => id) ?_ ?_ ?_ (q1_of ?_) (q3_of ?_) (q4_of ?_) (.inl hat) hc⟩
    · intro u; simp [hp, slView]
    · intro u; simp [hp, obView]
    · intro u; simp [hp, clView]
    · rw [hp]; rfl
    · simp [scanOf]
    · simp [over]

/-- Any step, except one which uses a thread that somebody else has released. -/
theorem good_step {max a x s g} (h : Inv max s g) (hw : ∀ t, s.pc a = .wCheck t → s.alive t = true) : Good max (step max a x s) := by
  cases hp : s.pc a with
  | none => simp [step, hp, Good]
  | dead => simp [step, hp, Good]
  | start => exact good_start h hp
  | run => exact good_run h hp
  | cSlot t => exact good_cSlot h hp
  | cCreate t => exact good_cCreate h hp
  | cRef t => exact good_cRef h hp
  | cPriv t => exact good_cPriv h hp
  | wCheck t => exact good_wCheck h hp (hw t hp)
  | wSwap t => exact good_wSwap h hp
  | jSelf t k => exact good_jSelf h hp
  | jOs t k => exact good_jOs h hp
  | jWait t k => exact good_jWait h hp
  | jRes t k => exact good_jRes h hp
  | jFlag t k => exact good_jFlag h hp
  | rIdx t k => exact good_rIdx h hp
  | rSlot t i k => exact good_rSlot h hp
  | rNum t k => exact good_rNum h hp
  | rRel t k => exact good_rRel h hp
  | dFlag t e => exact good_dFlag h hp
  | dRel t e => exact good_dRel h hp
  | fBegin => exact good_fBegin h hp
  | fNum all => exact good_fNum h hp
  | fLook c => exact good_fLook h hp
  | fCas t f c => exact good_fCas h hp
  | fRef t c => exact good_fRef h hp
  | fRel t c => exact good_fRel h hp
  | fNext c => exact good_fNext h hp
  | tOut r => exact good_tOut h hp
  | tFlag => exact good_tFlag h hp
  | tUnreg => exact good_tUnreg h hp
  | destroy => exact good_destroy h hp

def G.init : G where
  sl _ := .unborn
  slOwn _ := none
  ob _ := .none
  obOwn _ := none
  cl _ := .none
  clOwn _ := none
  pos _ := 0
  counted := []

theorem inv_init (max : Nat) : Inv max init G.init := by
  have hpc : ∀ a, init.pc a = .run ∨ init.pc a = .none := by intro a; simp only [init]; split <;> simp
  have hpc0 : init.pc 0 = .run := rfl
  refine ⟨⟨?_, ?_, ?_⟩, ⟨?_, ?_, ?_⟩, ⟨?_, ?_, ?_⟩, ?_, ?_, ⟨?_, ?_, ?_, ?_, ?_⟩, ⟨?_, ?_, ?_, ?_, ?_, ?_⟩, ⟨?_, ?_, ?_, ?_, ?_⟩, ?_, ?_, ?_⟩
  · intro a t x hx; rcases hpc a with h | h <;> rw [h] at hx <;> cases hx
  · intro a t h; cases h
  · intro t _; rfl
  · intro a t x hx; rcases hpc a with h | h <;> rw [h] at hx <;> cases hx
  · intro a t h; cases h
  · intro t _; rfl
  · intro a t x hx; rcases hpc a with h | h <;> rw [h] at hx <;> cases hx
  · intro a t h; cases h
  · intro t _; rfl
  · intro b
    by_cases e : b = 0
    · rw [e, hpc0]; trivial
    · simp only [init, e, if_false]; exact e
  · intro t
    have hc : cls (init.pc t) = .live ∨ cls (init.pc t) = .none := by rcases hpc t with h | h <;> rw [h] <;> simp [cls]
    have h0 : t ≠ 0 → cls (init.pc t) = .none := by intro e; simp [init, e, cls]
    generalize cls (init.pc t) = c at *
    simp only [init, G.init]
    constructor <;> grind
  · intro t j; simp [init, G.init, Sl.inTab]
  · intro t; simp [init, G.init, Sl.inTab]
  · intro t; simp [init, G.init, Sl.counted]
  · simp [G.init]
  · simp [init, G.init]
  · intro t ht
    rcases hpc t with h | h <;> simp only [h, cls] at ht <;> simp at ht
  · intro t r ht
    rcases hpc t with h | h <;> simp only [h, cls] at ht <;> cases ht
  · intro t r ht; simp [init] at ht
  · intro a t r ht; simp [init] at ht
  · simp [init]
  · simp [init]
  · intro t b h; cases h
  · intro t h; exact absurd rfl h
  · intro h; rw [hpc0] at h; cases h
  · intro c h; rw [hpc0] at h; cases h
  · intro h; rw [hpc0] at h; cases h
  · intro t ht
    refine ⟨rfl, rfl, rfl, ?_⟩
    have : t ≠ 0 := by simp only [init] at ht; omega
    simp [init, this]
  · simp [init]
  · rintro ⟨c, h, _⟩; rw [hpc0] at h; cases h

theorem step_wCheck_dead {max a x s t} (hp : s.pc a = .wCheck t) (h : s.alive t = false) : step max a x s = .fails .freed := by
  simp [step, hp, access, h]

theorem inv_calm {max s} (h : Calm max s) : ∃ g, Inv max s g := by
  induction h with
  | init => exact ⟨_, inv_init max⟩
  | step h1 h2 h3 ih =>
    rename_i s s' a x
    obtain ⟨g, ih⟩ := ih
    have := good_step (a := a) (x := x) ih (by
      intro t hp
      cases e : s.alive t with
      | true => rfl
      | false => rw [step_wCheck_dead hp e] at h2; cases h2)
    rw [h2] at this
    exact this h3

end Verif.Join
