/-
  What a step does not change.
-/
import Verif.Join.Inv
namespace Verif.Join

set_option linter.unusedSimpArgs false

@[simp] theorem upd_eq {α : Type} (f : Nat → α) (k : Nat) (x : α) : upd f k x k = x := by simp [upd]

theorem upd_ne {α : Type} (f : Nat → α) (x : α) {j k : Nat} (h : j ≠ k) : upd f k x j = f j := by simp [upd, h]

theorem upd_apply {α : Type} (f : Nat → α) (k j : Nat) (x : α) : upd f k x j = if j = k then x else f j := rfl

theorem Own.stay {α : Type} {view : Pc → Nat → Option α} {nobody pc own st} {a : Nat} {p' : Pc}
    (h : Own view nobody pc own st) (hv : ∀ t, view p' t = view (pc a) t) :
    Own view nobody (upd pc a p') own st := by
  have e : ∀ b t, view (upd pc a p' b) t = view (pc b) t := by
    intro b t
    by_cases hb : b = a
    · subst hb; simp [hv]
    · rw [upd_ne _ _ hb]
  refine ⟨fun b t x hx => h.o1 b t x (by rw [← e]; exact hx), fun b t hb => by rw [e]; exact h.o2 b t hb, h.o3⟩

theorem Own.move {α : Type} {view : Pc → Nat → Option α} {nobody pc own st} {a t0 : Nat} {p' : Pc} {x' : α} {o' : Option Nat}
    (h : Own view nobody pc own st) (hv : ∀ t, t ≠ t0 → view p' t = none ∧ view (pc a) t = none)
    (hold : view (pc a) t0 = none → own t0 = none)
    (hnew : (view p' t0 = some x' ∧ o' = some a) ∨ (view p' t0 = none ∧ nobody x' = true ∧ o' = none)) :
    Own view nobody (upd pc a p') (upd own t0 o') (upd st t0 x') := by
  have ho : ∀ b, own t0 = some b → b = a := by
    intro b hb
    cases hx : view (pc a) t0 with
    | none => simp [hold hx] at hb
    | some x => have := (h.o1 a t0 x hx).1; rw [hb] at this; simpa using this
  refine ⟨fun b t x hx => ?_, fun b t hb => ?_, fun t ht => ?_⟩
  · by_cases hb : b = a
    · subst hb
      rw [upd_eq] at hx
      by_cases ht : t = t0
      · subst ht
        rcases hnew with ⟨h1, h2⟩ | ⟨h1, h2⟩
        · rw [h1] at hx
          cases hx; exact ⟨by simp [h2], by simp⟩
        · rw [h1] at hx; cases hx
      · rw [(hv t ht).1] at hx; cases hx
    · rw [upd_ne _ _ hb] at hx
      have h1 := h.o1 b t x hx
      by_cases ht : t = t0
      · subst ht; exact absurd (ho b h1.1) hb
      · rw [upd_ne _ _ ht, upd_ne _ _ ht]; exact h1
  · by_cases ht : t = t0
    · subst ht
      rw [upd_eq] at hb
      rcases hnew with ⟨h1, h2⟩ | ⟨h1, h2, h3⟩
      · rw [h2] at hb; cases hb; simp [h1]
      · rw [h3] at hb; cases hb
    · rw [upd_ne _ _ ht] at hb
      have h2 := h.o2 b t hb
      have hba : b ≠ a := by intro e; subst e; rw [(hv t ht).2] at h2; cases h2
      rw [upd_ne _ _ hba, upd_ne _ _ ht]; exact h2
  · by_cases ht' : t = t0
    · subst ht'
      rw [upd_eq] at ht
      rcases hnew with ⟨h1, h2⟩ | ⟨h1, h2, h3⟩
      · rw [h2] at ht; cases ht
      · rw [upd_eq]; exact h2
    · rw [upd_ne _ _ ht'] at ht; rw [upd_ne _ _ ht']; exact h.o3 t ht

/-- A step of thread `a`, as other threads see it. -/
structure Fr (a : Nat) (s : S) (g : G) (s' : S) (g' : G) : Prop where
  sl : ∀ b t, b ≠ a → g.slOwn t = some b → g'.sl t = g.sl t ∧ g'.pos t = g.pos t ∧
    (g.ob t = .none → g'.ob t = .none) ∧ (g.cl t = .none → g'.cl t = .none)
  gone : ∀ t, g.sl t = .gone → g'.sl t = .gone
  past : ∀ t, (g.ob t).past = true → (g'.ob t).past = true
  dead : ∀ t, s.pc t = .dead → s'.pc t = .dead
  mutex : ∀ b, b ≠ a → s.mutex = some b → s'.mutex = some b ∧ s'.slot = s.slot
  closed : s.canCreate = false → s'.canCreate = false ∧ ∀ i, s.slot i = none → s'.slot i = none

theorem PA.frame {a b : Nat} {s s' : S} {g g' : G} {max : Nat} (h : Inv max s g) (f : Fr a s g s' g') (hb : b ≠ a) :
    PA s' g' b (s.pc b) := by
  have h0 := h.pa b
  have hsl := fun t x => h.sl.o1 b t x
  have fs := fun t => f.sl b t hb
  have fg := f.gone
  have fp := f.past
  have fd := f.dead
  have fm := f.mutex b hb
  have hcl : ∀ c : Scan, (c.all = true → b = 0) → scanOf (s.pc b) = some c → c.all = true → s.canCreate = false := by
    intro c h1 h2 h3
    apply h.en.closed
    have hb0 := h1 h3
    subst hb0
    unfold ending
    split
    · rfl
    · rfl
    · rfl
    · rfl
    · simp only [h2, h3]
  have fc := f.closed
  clear h f
  generalize s.pc b = p at *
  cases p with
  | jSelf t k =>
    obtain ⟨h1, -⟩ := hsl t _ (by simp only [slView, if_true]; rfl)
    have f1 := fs t h1
    clear hsl fs
    cases k <;> simp only [PA, ByJ, ByR, ByO, Sc] at h0 ⊢ <;> grind
  | jOs t k =>
    obtain ⟨h1, -⟩ := hsl t _ (by simp only [slView, if_true]; rfl)
    have f1 := fs t h1
    clear hsl fs
    cases k <;> simp only [PA, ByJ, ByR, ByO, Sc] at h0 ⊢ <;> grind
  | jWait t k =>
    obtain ⟨h1, -⟩ := hsl t _ (by simp only [slView, if_true]; rfl)
    have f1 := fs t h1
    clear hsl fs
    cases k <;> simp only [PA, ByJ, ByR, ByO, Sc] at h0 ⊢ <;> grind
  | jFlag t k =>
    obtain ⟨h1, -⟩ := hsl t _ (by simp only [slView, if_true]; rfl)
    have f1 := fs t h1
    clear hsl fs
    cases k <;> simp only [PA, ByJ, ByR, ByO, Sc] at h0 ⊢ <;> grind
  | jRes t k =>
    obtain ⟨h1, -⟩ := hsl t _ (by simp only [slView, if_true]; rfl)
    have f1 := fs t h1
    clear hsl fs
    cases k <;> simp only [PA, ByJ, ByR, ByO, Sc] at h0 ⊢ <;> grind
  | rIdx t k =>
    obtain ⟨h1, -⟩ := hsl t _ (by simp only [slView, if_true]; rfl)
    have f1 := fs t h1
    clear hsl fs
    cases k <;> simp only [PA, ByJ, ByR, ByO, Sc] at h0 ⊢ <;> grind
  | rSlot t i k =>
    obtain ⟨h1, -⟩ := hsl t _ (by simp only [slView, if_true]; rfl)
    have f1 := fs t h1
    clear hsl fs
    cases k <;> simp only [PA, ByJ, ByR, ByO, Sc] at h0 ⊢ <;> grind
  | rNum t k =>
    obtain ⟨h1, -⟩ := hsl t _ (by simp only [slView, if_true]; rfl)
    have f1 := fs t h1
    clear hsl fs
    cases k <;> simp only [PA, ByJ, ByR, ByO, Sc] at h0 ⊢ <;> grind
  | rRel t k =>
    obtain ⟨h1, -⟩ := hsl t _ (by simp only [slView, if_true]; rfl)
    have f1 := fs t h1
    clear hsl fs
    cases k <;> simp only [PA, ByJ, ByR, ByO, Sc] at h0 ⊢ <;> grind
  | fRef t c =>
    obtain ⟨h1, -⟩ := hsl t _ (by simp only [slView, if_true]; rfl)
    have f1 := fs t h1
    clear hsl fs
    simp only [PA, Sc] at h0 ⊢; grind
  | _ => clear hsl fs; simp only [PA, Sc] at h0 ⊢ <;> grind

theorem Own.keep {α : Type} {view : Pc → Nat → Option α} {nobody pc own st} {a : Nat} {p' : Pc} (t0 : Nat)
    (h : Own view nobody pc own st) (hv : ∀ t, view p' t = view (pc a) t) :
    Own view nobody (upd pc a p') (upd own t0 (own t0)) (upd st t0 (st t0)) := by
  have e1 : upd own t0 (own t0) = own := by funext j; by_cases hj : j = t0 <;> simp [upd, hj]
  have e2 : upd st t0 (st t0) = st := by funext j; by_cases hj : j = t0 <;> simp [upd, hj]
  rw [e1, e2]; exact h.stay hv

/-- With an empty table, all threads have ended. -/
theorem all_ended {max s g} (h : Inv max s g) (he : ∀ t, (g.sl t).inTab = false) : ∀ t, t ≠ 0 → s.pc t = .none ∨ s.pc t = .dead := by
  intro t ht
  have ti := h.ti t
  have hcl : cls (s.pc t) = .none ∨ cls (s.pc t) = .dead := by
    cases e : (g.sl t).early with
    | true => exact .inl (ti.early ht e)
    | false =>
      apply ti.ended e
      have := he t
      revert this; cases g.sl t <;> simp [Sl.inTab, Sl.runs]
  revert hcl; cases s.pc t <;> simp [cls]

theorem Table.empty {max slot n sl ps l} (h : Table max slot n sl ps l) : (∀ j, slot j = none) ↔ ∀ t, (sl t).inTab = false := by
  constructor
  · intro h1 t
    cases e : (sl t).inTab with
    | false => rfl
    | true => have := (h.tab t (ps t)).2 ⟨e, rfl⟩; rw [h1] at this; cases this
  · intro h1 j
    cases e : slot j with
    | none => rfl
    | some t => have := ((h.tab t j).1 e).1; rw [h1] at this; cases this

/-- What is known about the end of the program stays true. -/
theorem End.frame {a max : Nat} {p' : Pc} {s s' : S} {g g' : G} (h : Inv max s g) (hpc : s'.pc = upd s.pc a p')
    (hlive : s.pc a ≠ .none ∧ s.pc a ≠ .dead) (c1 : cls (s.pc a) = .unreg → cls p' = .dead)
    (e1 : ∀ t b, g'.clOwn t = some b → b ≠ 0 → g.clOwn t = some b ∨ cls (s.pc t) = .unreg ∨ cls (s.pc t) = .dead)
    (e2 : ∀ t, g'.cl t ≠ .none → g.cl t ≠ .none ∨ (g'.ob t).disowned = true ∨ Quiet s.pc)
    (e3 : ∀ t, (g.ob t).disowned = true → (g'.ob t).disowned = true)
    (e4 : a = 0 → ending (s.pc 0) = true → ending p' = true)
    (e5 : finished (s.pc a) = true → finished p' = true)
    (e6 : s.canCreate = false → s'.canCreate = false ∧ ∀ j t, s'.slot j = some t → s.slot j = some t)
    (e7 : a = 0 → ending p' = true → ending (s.pc 0) = true ∨ s'.canCreate = false)
    (e8 : ∀ j t, s'.slot j = some t → g.slOwn t ≠ none → g'.slOwn t ≠ none)
    (e9 : a = 0 → ∀ c, scanOf p' = some c → c.all = true → c.np = 0 → ∀ j t, j < passed p' → s'.slot j = some t →
      (scanOf (s.pc 0) = some c ∧ j < passed (s.pc 0)) ∨
      ((cls (s.pc t) = .unreg ∨ cls (s.pc t) = .dead) ∧ g.slOwn t ≠ none))
    (e10 : a = 0 → Join.over p' = true → Join.over (s.pc 0) = true ∨ ∀ j, s'.slot j = none) :
    End s' g' := by
  have hc : ∀ t, cls (s.pc t) = .unreg ∨ cls (s.pc t) = .dead → cls (s'.pc t) = .unreg ∨ cls (s'.pc t) = .dead := by
    intro t ht
    rw [hpc]
    by_cases e : t = a
    · subst e
      rw [upd_eq]
      rcases ht with ht | ht
      · exact .inr (c1 ht)
      · have : s.pc t = .dead := by revert ht; cases s.pc t <;> simp [cls]
        exact absurd this hlive.2
    · rw [upd_ne _ _ e]; exact ht
  have hq : Quiet s.pc → Quiet s'.pc := by
    intro q
    rw [hpc]
    refine ⟨?_, fun t ht => ?_⟩
    · by_cases e : (0 : Nat) = a
      · rw [← e, upd_eq]; exact e4 e.symm q.1
      · rw [upd_ne _ _ e]; exact q.1
    · by_cases e : t = a
      · subst e; rw [upd_eq]; exact e5 (q.2 _ ht)
      · rw [upd_ne _ _ e]; exact q.2 t ht
  have hcl : ending (s'.pc 0) = true → ending (s.pc 0) = true ∨ s'.canCreate = false := by
    intro he
    rw [hpc] at he
    by_cases e : (0 : Nat) = a
    · rw [← e, upd_eq] at he; exact e7 e.symm he
    · rw [upd_ne _ _ e] at he; exact .inl he
  refine ⟨fun t b h1 h2 => ?_, fun t ht => ?_, fun he => ?_, fun c h1 h2 h3 j t h4 h5 => ?_, fun ho t => ?_⟩
  · rcases e1 t b h1 h2 with h3 | h3
    · exact hc t (h.en.claim t b h3 h2)
    · exact hc t h3
  · rcases e2 t ht with h3 | h3 | h3
    · rcases h.en.claimed t h3 with h4 | h4
      · exact .inl (e3 t h4)
      · exact .inr (hq h4)
    · exact .inl h3
    · exact .inr (hq h3)
  · rcases hcl he with h1 | h1
    · exact (e6 (h.en.closed h1)).1
    · exact h1
  · by_cases e : (0 : Nat) = a
    · rw [hpc, ← e, upd_eq] at h1 h4
      rcases e9 e.symm c h1 h2 h3 j t h4 h5 with ⟨h6, h7⟩ | ⟨h6, h7⟩
      · have hen : ending (s.pc 0) = true := by
          unfold ending; split <;> first | rfl | simp only [h6, h2]
        have h8 := h.en.seen c h6 h2 h3 j t h7 ((e6 (h.en.closed hen)).2 j t h5)
        exact ⟨hc t h8.1, e8 j t h5 h8.2⟩
      · exact ⟨hc t h6, e8 j t h5 h7⟩
    · rw [hpc, upd_ne _ _ e] at h1 h4
      have hen : ending (s.pc 0) = true := by
        unfold ending; split <;> first | rfl | simp only [h1, h2]
      have h8 := h.en.seen c h1 h2 h3 j t h4 ((e6 (h.en.closed hen)).2 j t h5)
      exact ⟨hc t h8.1, e8 j t h5 h8.2⟩
  · by_cases e : (0 : Nat) = a
    · rw [hpc, ← e, upd_eq] at ho
      rcases e10 e.symm ho with h1 | h1
      · have hen : ending (s.pc 0) = true := by
          revert h1; cases s.pc 0 with
          | dFlag t e => cases e <;> simp [Join.over, ending]
          | dRel t e => cases e <;> simp [Join.over, ending]
          | _ => simp [Join.over, ending]
        cases es : s'.slot t with
        | none => rfl
        | some u =>
          have := (e6 (h.en.closed hen)).2 t u es
          rw [h.en.over h1] at this; cases this
      · exact h1 t
    · rw [hpc, upd_ne _ _ e] at ho
      have := all_ended h (h.tb.empty.1 (h.en.over ho)) a (fun x => e x.symm)
      rcases this with h1 | h1
      · exact absurd h1 hlive.1
      · exact absurd h1 hlive.2

/-- The part of the ghost state which is about thread `t0` is changed. -/
def G.set (g : G) (t0 : Nat) (x : Sl) (ox : Option Nat) (y : Ob) (oy : Option Nat) (z : Cl) (oz : Option Nat) (ps : Nat)
    (l : List Nat) : G where
  sl := upd g.sl t0 x
  slOwn := upd g.slOwn t0 ox
  ob := upd g.ob t0 y
  obOwn := upd g.obOwn t0 oy
  cl := upd g.cl t0 z
  clOwn := upd g.clOwn t0 oz
  pos := upd g.pos t0 ps
  counted := l

/-- Thread `a` goes on and does something with thread `t0`. -/
theorem Inv.core {a max : Nat} {p' : Pc} {s s' : S} {g : G} (h : Inv max s g) (t0 : Nat) (x : Sl) (ox : Option Nat) (y : Ob)
    (oy : Option Nat) (z : Cl) (oz : Option Nat) (ps : Nat) (l : List Nat)
    (hpc : s'.pc = upd s.pc a p') (hlive : s.pc a ≠ .none ∧ s.pc a ≠ .dead)
    (hcl : cls p' = cls (s.pc a) ∨ t0 = a) (hc1 : cls (s.pc a) = .unreg → cls p' = .dead)
    (hf : finished (s.pc a) = true → finished p' = true)
    (hnext : s.next ≤ s'.next)
    (hcan : s.canCreate = false → s'.canCreate = false ∧ ∀ j t, s'.slot j = some t → s.slot j = some t)
    (hmut : ∀ b, b ≠ a → s.mutex = some b → s'.mutex = some b ∧ s'.slot = s.slot)
    (hoth : ∀ t, t ≠ t0 → s'.alive t = s.alive t ∧ s'.flags t = s.flags t ∧ s'.ref t = s.ref t ∧ s'.idx t = s.idx t ∧
      s'.waited t = s.waited t ∧ s'.priv t = s.priv t ∧ s'.obj t = s.obj t)
    (osl : Own slView Sl.nobody (upd s.pc a p') (upd g.slOwn t0 ox) (upd g.sl t0 x))
    (oob : Own obView Ob.nobody (upd s.pc a p') (upd g.obOwn t0 oy) (upd g.ob t0 y))
    (ocl : Own clView Cl.nobody (upd s.pc a p') (upd g.clOwn t0 oz) (upd g.cl t0 z))
    (f1 : ∀ b, b ≠ a → g.slOwn t0 = some b → x = g.sl t0 ∧ ps = g.pos t0 ∧ (g.ob t0 = .none → y = .none) ∧
      (g.cl t0 = .none → z = .none))
    (f2 : g.sl t0 = .gone → x = .gone) (f3 : (g.ob t0).past = true → y.past = true)
    (tb : Table max s'.slot s'.num (upd g.sl t0 x) (upd g.pos t0 ps) l)
    (lg : Log (fun t => cls (s'.pc t)) s'.out s'.log (upd g.sl t0 x))
    (f6 : (g.ob t0).disowned = true → y.disowned = true)
    (f7 : ∀ b, oz = some b → b ≠ 0 → g.clOwn t0 = some b ∨ cls (s.pc t0) = .unreg ∨ cls (s.pc t0) = .dead)
    (f8 : z ≠ .none → g.cl t0 ≠ .none ∨ y.disowned = true ∨ Quiet s.pc)
    (f9 : ∀ j, s'.slot j = some t0 → g.slOwn t0 ≠ none → ox ≠ none) (f10 : t0 < s'.next)
    (q1 : a = 0 → (ending (s.pc 0) = true → ending p' = true) ∧
      (ending p' = true → ending (s.pc 0) = true ∨ s'.canCreate = false))
    (q3 : a = 0 → ∀ c, scanOf p' = some c → c.all = true → c.np = 0 → ∀ j t, j < passed p' → s'.slot j = some t →
      (scanOf (s.pc 0) = some c ∧ j < passed (s.pc 0)) ∨
      ((cls (s.pc t) = .unreg ∨ cls (s.pc t) = .dead) ∧ g.slOwn t ≠ none))
    (q4 : a = 0 → Join.over p' = true → Join.over (s.pc 0) = true ∨ ∀ j, s'.slot j = none)
    (pa : PA s' (g.set t0 x ox y oy z oz ps l) a p')
    (ti : TI t0 (cls (upd s.pc a p' t0)) x y z (s'.alive t0) (s'.flags t0) (s'.ref t0) (s'.idx t0) ps
      (s'.waited t0) (s'.priv t0) (s'.obj t0))
    (calm : ¬ Hasty s') :
    Inv max s' (g.set t0 x ox y oy z oz ps l) := by
  have hcls : ∀ t, t ≠ t0 → cls (s'.pc t) = cls (s.pc t) := by
    intro t ht
    rw [hpc]
    by_cases e : t = a
    · subst e
      rw [upd_eq]
      rcases hcl with h1 | h1
      · exact h1
      · exact absurd h1.symm ht
    · rw [upd_ne _ _ e]
  have han : a < s.next := by
    by_cases e : a < s.next
    · exact e
    · exact absurd (h.fresh a (Nat.le_of_not_lt e)).2.2.2 hlive.1
  have fr : Fr a s g s' (g.set t0 x ox y oy z oz ps l) := by
    refine ⟨fun b t hb ht => ?_, fun t ht => ?_, fun t ht => ?_, fun t ht => ?_, hmut, fun hc => ?_⟩
    · by_cases e : t = t0
      · subst e
        simp only [G.set, upd_eq]
        exact f1 b hb ht
      · simp only [G.set, upd_ne _ _ e]
        exact ⟨trivial, trivial, id, id⟩
    · by_cases e : t = t0
      · subst e; simp only [G.set, upd_eq]; exact f2 ht
      · simp only [G.set, upd_ne _ _ e]; exact ht
    · by_cases e : t = t0
      · subst e; simp only [G.set, upd_eq]; exact f3 ht
      · simp only [G.set, upd_ne _ _ e]; exact ht
    · rw [hpc, upd_ne]
      · exact ht
      · intro e; subst e; exact hlive.2 ht
    · refine ⟨(hcan hc).1, fun i hi => ?_⟩
      cases hs : s'.slot i with
      | none => rfl
      | some t => have := (hcan hc).2 i t hs; rw [hi] at this; cases this
  refine ⟨by rw [hpc]; exact osl, by rw [hpc]; exact oob, by rw [hpc]; exact ocl, fun b => ?_, fun t => ?_, tb, lg, ?_, ?_, ?_, calm⟩
  · by_cases e : b = a
    · subst e; rw [hpc, upd_eq]; exact pa
    · have := PA.frame h fr e
      have e2 : s'.pc b = s.pc b := by rw [hpc, upd_ne _ _ e]
      rw [e2]; exact this
  · by_cases e : t = t0
    · subst e; simp only [G.set, upd_eq]; rw [hpc]; exact ti
    · simp only [G.set, upd_ne _ _ e]
      obtain ⟨e1, e2, e3, e4, e5, e6, e7⟩ := hoth t e
      rw [e1, e2, e3, e4, e5, e6, e7, hcls t e]
      exact h.ti t
  · refine End.frame h hpc hlive hc1 ?_ ?_ ?_ (fun e => (q1 e).1) hf hcan (fun e => (q1 e).2) ?_ q3 q4
    · intro t b hb hb0
      by_cases e : t = t0
      · subst e; simp only [G.set, upd_eq] at hb; exact f7 b hb hb0
      · simp only [G.set, upd_ne _ _ e] at hb; exact .inl hb
    · intro t ht
      by_cases e : t = t0
      · subst e; simp only [G.set, upd_eq] at ht ⊢; exact f8 ht
      · simp only [G.set, upd_ne _ _ e] at ht; exact .inl ht
    · intro t ht
      by_cases e : t = t0
      · subst e; simp only [G.set, upd_eq]; exact f6 ht
      · simp only [G.set, upd_ne _ _ e]; exact ht
    · intro j t hj ht
      by_cases e : t = t0
      · subst e; simp only [G.set, upd_eq]
        exact f9 j hj ht
      · simp only [G.set, upd_ne _ _ e]; exact ht
  · intro t ht
    have e : t ≠ t0 := by omega
    have e' : t ≠ a := by omega
    simp only [G.set, upd_ne _ _ e]
    rw [hpc, upd_ne _ _ e']
    exact h.fresh t (by omega)
  · have := h.next; omega

theorem Table.same {max slot n sl ps l} (h : Table max slot n sl ps l) (t0 : Nat) (x : Sl)
    (f4 : x.inTab = (sl t0).inTab ∧ x.counted = (sl t0).counted) :
    Table max slot n (upd sl t0 x) (upd ps t0 (ps t0)) l := by
  have hx : ∀ t, (upd sl t0 x t).inTab = (sl t).inTab ∧ (upd sl t0 x t).counted = (sl t).counted := by
    intro t
    by_cases e : t = t0
    · subst e; simp only [upd_eq]; exact f4
    · simp only [upd_ne _ _ e]; exact ⟨trivial, trivial⟩
  have e1 : upd ps t0 (ps t0) = ps := by funext j; by_cases hj : j = t0 <;> simp [upd, hj]
  rw [e1]
  exact ⟨fun t j => by rw [(hx t).1]; exact h.tab t j, fun t => by rw [(hx t).1]; exact h.pos t,
    fun t => by rw [(hx t).2]; exact h.count t, h.nodup, h.num⟩

theorem Log.same {cl o log sl} (h : Log cl o log sl) (t0 : Nat) (x : Sl)
    (f5 : (sl t0).waited = true → sl t0 ≠ .os → x.waited = true ∧ x ≠ .os) : Log cl o log (upd sl t0 x) := by
  refine ⟨h.out, h.outs, h.gave, fun b t r hr => ?_, h.gaveOnce, h.gotOnce⟩
  have := h.got b t r hr
  by_cases e : t = t0
  · subst e; simp only [upd_eq]
    have h5 := f5 this.1 this.2.1
    exact ⟨h5.1, h5.2, this.2.2⟩
  · simp only [upd_ne _ _ e]; exact this

/-- The same, if the table and results do not change. -/
theorem Inv.go {a max : Nat} {p' : Pc} {s s' : S} {g : G} (h : Inv max s g) (t0 : Nat) (x : Sl) (ox : Option Nat) (y : Ob)
    (oy : Option Nat) (z : Cl) (oz : Option Nat)
    (hpc : s'.pc = upd s.pc a p') (hl : cls (s.pc a) = .live) (hl' : cls p' = .live)
    (hslot : s'.slot = s.slot) (hnum : s'.num = s.num) (hout : s'.out = s.out) (hlog : s'.log = s.log)
    (hnext : s'.next = s.next) (hcan : s.canCreate = false → s'.canCreate = false)
    (hmut : ∀ b, b ≠ a → s.mutex = some b → s'.mutex = some b)
    (hoth : ∀ t, t ≠ t0 → s'.alive t = s.alive t ∧ s'.flags t = s.flags t ∧ s'.ref t = s.ref t ∧ s'.idx t = s.idx t ∧
      s'.waited t = s.waited t ∧ s'.priv t = s.priv t ∧ s'.obj t = s.obj t)
    (osl : Own slView Sl.nobody (upd s.pc a p') (upd g.slOwn t0 ox) (upd g.sl t0 x))
    (oob : Own obView Ob.nobody (upd s.pc a p') (upd g.obOwn t0 oy) (upd g.ob t0 y))
    (ocl : Own clView Cl.nobody (upd s.pc a p') (upd g.clOwn t0 oz) (upd g.cl t0 z))
    (f1 : ∀ b, b ≠ a → g.slOwn t0 = some b → x = g.sl t0 ∧ (g.ob t0 = .none → y = .none) ∧ (g.cl t0 = .none → z = .none))
    (f2 : g.sl t0 = .gone → x = .gone) (f3 : (g.ob t0).past = true → y.past = true)
    (f4 : x.inTab = (g.sl t0).inTab ∧ x.counted = (g.sl t0).counted)
    (f5 : (g.sl t0).waited = true → g.sl t0 ≠ .os → x.waited = true ∧ x ≠ .os)
    (f6 : (g.ob t0).disowned = true → y.disowned = true)
    (f7 : ∀ b, oz = some b → b ≠ 0 → g.clOwn t0 = some b ∨ cls (s.pc t0) = .unreg ∨ cls (s.pc t0) = .dead)
    (f8 : z ≠ .none → g.cl t0 ≠ .none ∨ y.disowned = true ∨ Quiet s.pc)
    (f9 : x.inTab = true → g.slOwn t0 ≠ none → ox ≠ none) (f10 : t0 < s.next)
    (q1 : a = 0 → (ending (s.pc 0) = true → ending p' = true) ∧
      (ending p' = true → ending (s.pc 0) = true ∨ s'.canCreate = false))
    (q3 : a = 0 → ∀ c, scanOf p' = some c → c.all = true → c.np = 0 → ∀ j t, j < passed p' → s.slot j = some t →
      (scanOf (s.pc 0) = some c ∧ j < passed (s.pc 0)) ∨
      ((cls (s.pc t) = .unreg ∨ cls (s.pc t) = .dead) ∧ g.slOwn t ≠ none))
    (q4 : a = 0 → Join.over p' = true → Join.over (s.pc 0) = true ∨ ∀ j, s.slot j = none)
    (pa : PA s' (g.set t0 x ox y oy z oz (g.pos t0) g.counted) a p')
    (ti : TI t0 (cls (s.pc t0)) x y z (s'.alive t0) (s'.flags t0) (s'.ref t0) (s'.idx t0) (g.pos t0)
      (s'.waited t0) (s'.priv t0) (s'.obj t0))
    (calm : ¬ Hasty s') :
    Inv max s' (g.set t0 x ox y oy z oz (g.pos t0) g.counted) := by
  have hcls : ∀ t, cls (s'.pc t) = cls (s.pc t) := by
    intro t
    rw [hpc]
    by_cases e : t = a
    · subst e; rw [upd_eq, hl, hl']
    · rw [upd_ne _ _ e]
  have hlive : s.pc a ≠ .none ∧ s.pc a ≠ .dead := by
    constructor <;> intro e <;> rw [e] at hl <;> simp [cls] at hl
  refine h.core t0 x ox y oy z oz (g.pos t0) g.counted hpc hlive (.inl (by rw [hl, hl'])) (by rw [hl]; simp) ?_ (Nat.le_of_eq hnext.symm)
    ?_ ?_ hoth osl oob ocl ?_ f2 f3 ?_ ?_ f6 f7 f8 ?_ (by rw [hnext]; exact f10) q1 ?_ (by rw [hslot]; exact q4) pa ?_ calm
  · intro hf; exfalso; revert hl hf hlive; cases s.pc a <;> simp [cls, finished]
  · intro hc; rw [hslot]; exact ⟨hcan hc, fun _ _ => id⟩
  · intro b hb hm; exact ⟨hmut b hb hm, hslot⟩
  · intro b hb ho; have := f1 b hb ho; exact ⟨this.1, rfl, this.2⟩
  · rw [hslot, hnum]; exact h.tb.same t0 x f4
  · have hcls' : (fun t => cls (s'.pc t)) = fun t => cls (s.pc t) := funext hcls
    rw [hcls', hout, hlog]; exact h.lg.same t0 x f5
  · intro j hj ho
    rw [hslot] at hj
    exact f9 (by rw [f4.1]; exact ((h.tb.tab t0 j).1 hj).1) ho
  · rw [hslot]; exact q3
  · rw [← hpc, hcls]; exact ti

end Verif.Join
