import Verif.Obj.Sim

/-! Reading, writing and deleting properties. -/
namespace Verif.Obj

variable {K V : Type} [DecidableEq K]

theorem Sim.pow {H : K → Nat} {w : World K V} {sp : List (SObj K V)} (s : Sim H w sp) {o ti : Nat} {ob : Object}
    (ho : w.objs[o]? = some ob) (ht : ob.table = some ti) : ∃ t j, w.tables[ti]? = some t ∧ t.cap = 2 ^ j ∧ 2 ≤ j := by
  obtain ⟨so, h1, h2, h3, h4, h5, h6⟩ := s.obj o ob ho
  obtain ⟨hp, tb, htb', g, r⟩ := h6 ti ht
  obtain ⟨j, h2, _, e⟩ := g.pow
  exact ⟨tb, j, htb', e, h2⟩

theorem setProperty_spec {H : K → Nat} (mem : Nat → Nat → Bool) (dyn : V → Bool) {w : World K V} {sp : List (SObj K V)} (s : Sim H w sp) {o : Nat}
    {so : SObj K V} (hs : sp[o]? = some so) (hp : so.props = true) (k : K) (ov : Option V) :
    (Huge mem ∧ setProperty mem dyn H w o k (Val.of ov) = .error .ub) ∨
    ∃ w' out sp', setProperty mem dyn H w o k (Val.of ov) = .ok (w', out) ∧ w.reqs ≤ w'.reqs ∧ Sim H w' sp' ∧
      Spec.Wrote dyn sp o k ov out sp' ∧ (out = .oom → Refused mem w.reqs w'.reqs) := by
  have hlen : o < w.objs.length := by rw [s.len]; exact (List.getElem?_eq_some_iff.mp hs).1
  obtain ⟨ob, ho⟩ : ∃ ob, w.objs[o]? = some ob := ⟨_, List.getElem?_eq_getElem hlen⟩
  obtain ⟨so', h1, h2, h3, h4, h5, h6⟩ := s.obj o ob ho
  rw [hs] at h1; cases h1
  unfold setProperty
  simp only [World.obj_ok ho, bind, Except.bind]
  rw [if_pos (h2.symm.trans hp)]
  cases ht : ob.table with
  | some ti =>
    simp only
    obtain ⟨t, j, htb, hj, h2⟩ := s.pow ho ht
    exact setLoop_spec mem dyn o k ov 40 s ho ht htb hj (by omega)
  | none =>
    simp only
    cases ov with
    | none =>
      right
      refine ⟨w, .ok, _, by simp [Val.of], Nat.le_refl _, s, ⟨so, hs, Or.inr (Or.inl ⟨by simp, Or.inl rfl, ?_⟩)⟩, by simp⟩
      rw [bind_some hs, upd_same (by rw [h5 ht]), sp_set_self hs]
    | some v =>
      rw [if_neg (by simp [Val.of])]
      rcases resize_first mem s ho (h2.symm.trans hp) ht with ⟨hr, hf, hsim⟩ | ⟨w', ob', t', hr, hq, hsim, ho', ht', hp', htb', hc'⟩
      · right
        rw [hr]
        exact ⟨_, .oom, sp, by simp, Nat.le_succ _, hsim, ⟨so, hs, Or.inr (Or.inr ⟨rfl, rfl⟩)⟩, fun _ => hf⟩
      · rw [hr]
        simp only [if_true, World.obj_ok ho', ht']
        rcases setLoop_spec mem dyn o k (some v) 40 hsim ho' ht' htb' hc' (by omega) with h | ⟨w2, out, sp', hr2, hq2, hs2, hw2, hf2⟩
        · exact Or.inl h
        · right
          exact ⟨w2, out, sp', hr2, by omega, hs2, hw2, fun e => (hf2 e).mono (by omega) (Nat.le_refl _)⟩

/-- The next object with a table, along the chain. -/
theorem findValid_spec {H : K → Nat} {w : World K V} {sp : List (SObj K V)} (s : Sim H w sp) (k : K) :
    ∀ (fuel o : Nat), o + 1 < fuel → o < w.objs.length →
      (findValid w fuel (some o) = .ok none ∧ Spec.Deep sp k o none) ∨
      ∃ o' t ob', findValid w fuel (some o) = .ok (some (o', t)) ∧ o' ≤ o ∧ w.objs[o']? = some ob' ∧ ob'.table = some t ∧
        ∀ r, Spec.Deep sp k o' r → Spec.Deep sp k o r := by
  intro fuel
  induction fuel with
  | zero => intro o h; omega
  | succ fuel ih =>
    intro o h hl
    obtain ⟨ob, ho⟩ : ∃ ob, w.objs[o]? = some ob := ⟨_, List.getElem?_eq_getElem hl⟩
    obtain ⟨so, h1, h2, h3, h4, h5, h6⟩ := s.obj o ob ho
    rw [findValid]
    simp only [World.obj_ok ho, bind, Except.bind]
    cases ht : ob.table with
    | some t =>
      rw [if_pos (h6 t ht).1]
      exact Or.inr ⟨o, t, ob, rfl, Nat.le_refl _, ho, ht, fun _ h => h⟩
    | none =>
      simp only [ite_self]
      have hm : so.map k = none := by rw [h5 ht]
      cases hpr : ob.proto with
      | none =>
        left
        refine ⟨?_, Spec.Deep.stop h1 hm (h3.trans hpr)⟩
        cases fuel with
        | zero => omega
        | succ => rfl
      | some p =>
        have hlt := h4 p hpr
        have hup : ∀ r, Spec.Deep sp k p r → Spec.Deep sp k o r := fun r hr => Spec.Deep.up h1 hm (h3.trans hpr) hr
        rcases ih p (by omega) (by omega) with ⟨e, hd⟩ | ⟨o', t, ob', e, hle, ho', ht', hup'⟩
        · exact Or.inl ⟨e, hup _ hd⟩
        · exact Or.inr ⟨o', t, ob', e, by omega, ho', ht', fun r hr => hup r (hup' r hr)⟩

theorem getLoop_spec {H : K → Nat} {w : World K V} {sp : List (SObj K V)} (s : Sim H w sp) (k : K) :
    ∀ (fuel o ti : Nat) (ob : Object), o < fuel → w.objs[o]? = some ob → ob.table = some ti →
      ∃ r, getLoop w k (H k) false fuel o ti = .ok r ∧ Spec.Deep sp k o r := by
  intro fuel
  induction fuel with
  | zero => intro o ti ob h; omega
  | succ fuel ih =>
    intro o ti ob h ho ht
    obtain ⟨so, h1, h2, h3, h4, h5, h6⟩ := s.obj o ob ho
    obtain ⟨hp, tb, htb, g, r⟩ := h6 ti ht
    have hlen : o < w.objs.length := (List.getElem?_eq_some_iff.mp ho).1
    rw [getLoop]
    simp only [World.table_ok htb, findProperty_spec g r k, bind, Except.bind]
    cases hm : so.map k with
    | some v => exact ⟨some v, rfl, Spec.Deep.here h1 hm⟩
    | none =>
      simp only [World.obj_ok ho, Bool.false_eq_true, if_false]
      cases hpr : ob.proto with
      | none => exact ⟨none, by simp [findValid], Spec.Deep.stop h1 hm (h3.trans hpr)⟩
      | some p =>
        have hlt := h4 p hpr
        rcases findValid_spec s k (w.objs.length + 1) p (by omega) (by omega) with ⟨e, hd⟩ | ⟨o', t, ob', e, hle, ho', ht', hup'⟩
        · rw [e]
          exact ⟨none, rfl, Spec.Deep.up h1 hm (h3.trans hpr) hd⟩
        · rw [e]
          simp only
          obtain ⟨r, hr, hd⟩ := ih o' t ob' (by omega) ho' ht'
          exact ⟨r, hr, Spec.Deep.up h1 hm (h3.trans hpr) (hup' r hd)⟩

theorem getProperty_deep {H : K → Nat} {w : World K V} {sp : List (SObj K V)} (s : Sim H w sp) {o : Nat} (ho : o < sp.length) (k : K) :
    ∃ r, getProperty H w o k false = .ok r ∧ Spec.Deep sp k o r := by
  have hlen : o < w.objs.length := by rw [s.len]; exact ho
  obtain ⟨ob, ho⟩ : ∃ ob, w.objs[o]? = some ob := ⟨_, List.getElem?_eq_getElem hlen⟩
  unfold getProperty
  simp only [World.obj_ok ho, bind, Except.bind, Bool.false_eq_true, if_false]
  rcases findValid_spec s k (w.objs.length + 1) o (by omega) hlen with ⟨e, hd⟩ | ⟨o', t, ob', e, hle, ho', ht', hup'⟩
  · rw [e]; exact ⟨none, rfl, hd⟩
  · rw [e]
    obtain ⟨r, hr, hd⟩ := getLoop_spec s k (w.objs.length + 1) o' t ob' (by omega) ho' ht'
    exact ⟨r, hr, hup' r hd⟩

theorem getProperty_shallow {H : K → Nat} {w : World K V} {sp : List (SObj K V)} (s : Sim H w sp) {o : Nat} {so : SObj K V}
    (hs : sp[o]? = some so) (k : K) : getProperty H w o k true = .ok (so.map k) := by
  have hlen : o < w.objs.length := by rw [s.len]; exact (List.getElem?_eq_some_iff.mp hs).1
  obtain ⟨ob, ho⟩ : ∃ ob, w.objs[o]? = some ob := ⟨_, List.getElem?_eq_getElem hlen⟩
  obtain ⟨so', h1, h2, h3, h4, h5, h6⟩ := s.obj o ob ho
  rw [hs] at h1; cases h1
  unfold getProperty
  simp only [World.obj_ok ho, bind, Except.bind, if_true]
  cases ht : ob.table with
  | none => simp [h5 ht]
  | some ti =>
    obtain ⟨hp, tb, htb, g, r⟩ := h6 ti ht
    simp only [hp, if_true, Option.map_some]
    rw [getLoop]
    simp only [World.table_ok htb, findProperty_spec g r k, bind, Except.bind]
    cases so.map k <;> rfl

theorem Sim.map_none {H : K → Nat} {w : World K V} {sp : List (SObj K V)} (s : Sim H w sp) {o : Nat} {so : SObj K V}
    (hs : sp[o]? = some so) (hp : so.props = false) : so.map = fun _ => none := by
  have hlen : o < w.objs.length := by rw [s.len]; exact (List.getElem?_eq_some_iff.mp hs).1
  obtain ⟨ob, ho⟩ : ∃ ob, w.objs[o]? = some ob := ⟨_, List.getElem?_eq_getElem hlen⟩
  obtain ⟨so', h1, h2, h3, h4, h5, h6⟩ := s.obj o ob ho
  rw [hs] at h1; cases h1
  apply h5
  cases ht : ob.table with
  | none => rfl
  | some t => have := (h6 t ht).1; rw [← h2, hp] at this; cases this

seal setProperty in
theorem deleteProperty_eq {H : K → Nat} (mem : Nat → Nat → Bool) (dyn : V → Bool) {w : World K V} {o : Nat} {ob : Object}
    (ho : w.objs[o]? = some ob) (hp : ob.props = true) (k : K) :
    deleteProperty mem dyn H w o k = setProperty mem dyn H w o k (Val.of none) := by
  simp only [deleteProperty, World.obj_ok ho, bind, Except.bind, hp, if_true, Val.of]

end Verif.Obj
