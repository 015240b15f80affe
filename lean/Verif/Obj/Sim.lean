import Verif.Obj.Copy

/-! Objects as finite maps. -/
namespace Verif.Obj

variable {K V : Type} [DecidableEq K]

/-- What an object is to its users: a prototype and a finite map. -/
structure SObj (K V : Type) where
  props : Bool
  proto : Option Nat
  map : K → Option V

namespace Spec

/-- Lookup along the prototype chain. -/
inductive Deep (sp : List (SObj K V)) (k : K) : Nat → Option V → Prop
  | here {o so v} : sp[o]? = some so → so.map k = some v → Deep sp k o (some v)
  | up {o so p r} : sp[o]? = some so → so.map k = none → so.proto = some p → Deep sp k p r → Deep sp k o r
  | stop {o so} : sp[o]? = some so → so.map k = none → so.proto = none → Deep sp k o none

/-- The binding of `k` in object `o` replaced. -/
def bind (sp : List (SObj K V)) (o : Nat) (k : K) (ov : Option V) : List (SObj K V) :=
  match sp[o]? with
  | some so => sp.set o { so with map := fun k' => if k' = k then ov else so.map k' }
  | none => sp

/-- Write (`ov = some v`) or deletion (`ov = none`) of a property of an object with properties.  A write to a dynamic property goes to its
setter.  If memory is refused, the outcome is `oom` and the binding may or may not have been replaced. -/
def Wrote (dyn : V → Bool) (sp : List (SObj K V)) (o : Nat) (k : K) (ov : Option V) (out : Out V) (sp' : List (SObj K V)) : Prop :=
  ∃ so, sp[o]? = some so ∧
    ((∃ d, ov.isSome ∧ so.map k = some d ∧ dyn d = true ∧ out = .setter d ∧ sp' = sp) ∨
     ((ov.isSome → ∀ d, so.map k = some d → dyn d = false) ∧ (out = .ok ∨ out = .oom) ∧ sp' = bind sp o k ov) ∨
     (out = .oom ∧ sp' = sp))

end Spec

/-- All properties of a table have been moved to another one. -/
structure Shut (t : Table K V) : Prop where
  closed : ∀ i < t.cap, (t.items i).val = .closed
  uniq : ∀ i < t.cap, ∀ j < t.cap, ∀ k, (t.items i).key = some k → (t.items j).key = some k → i = j

/-- The objects of a world are these maps. -/
structure Sim (H : K → Nat) (w : World K V) (sp : List (SObj K V)) : Prop where
  len : w.objs.length = sp.length
  obj : ∀ (i : Nat) (ob : Object), w.objs[i]? = some ob → ∃ so : SObj K V, sp[i]? = some so ∧ so.props = ob.props ∧ so.proto = ob.proto ∧
    (∀ p, ob.proto = some p → p < i) ∧ (ob.table = none → so.map = fun _ => none) ∧
    (∀ t, ob.table = some t → ob.props = true ∧ ∃ tb, w.tables[t]? = some tb ∧ Good H tb ∧ Rep tb so.map)
  own : ∀ (i j : Nat) (ob ob' : Object) (t : Nat), w.objs[i]? = some ob → w.objs[j]? = some ob' → ob.table = some t → ob'.table = some t → i = j
  old : ∀ (t : Nat) (tb : Table K V), w.tables[t]? = some tb → (∃ (i : Nat) (ob : Object), w.objs[i]? = some ob ∧ ob.table = some t) ∨ Shut tb

/-- Some request in the given range was refused. -/
def Refused (mem : Nat → Nat → Bool) (a b : Nat) : Prop := ∃ n c, a ≤ n ∧ n < b ∧ mem n c = false

/-- A request for more than 2^27 slots was granted. -/
def Huge (mem : Nat → Nat → Bool) : Prop := ∃ n c, 268435456 ≤ c ∧ mem n c = true

theorem bind_some {sp : List (SObj K V)} {o : Nat} {so : SObj K V} (h : sp[o]? = some so) (k : K) (ov : Option V) :
    Spec.bind sp o k ov = sp.set o { so with map := upd so.map k ov } := by
  unfold Spec.bind; rw [h]; rfl

/-- A table of an object is replaced by another one with map `m'`. -/
theorem Sim.write {H : K → Nat} {w : World K V} {sp : List (SObj K V)} (s : Sim H w sp) {o ti : Nat} {ob : Object} {so : SObj K V}
    (ho : w.objs[o]? = some ob) (ht : ob.table = some ti) (hs : sp[o]? = some so) {t' : Table K V} {m' : K → Option V}
    (g : Good H t') (r : Rep t' m') : Sim H { w with tables := w.tables.set ti t' } (sp.set o { so with map := m' }) := by
  obtain ⟨so', h1, h2, h3, h4, h5, h6⟩ := s.obj o ob ho
  rw [hs] at h1; cases h1
  have hti : ti < w.tables.length := by
    obtain ⟨_, tb, htb, _⟩ := h6 ti ht
    exact (List.getElem?_eq_some_iff.mp htb).1
  have hso : o < sp.length := (List.getElem?_eq_some_iff.mp hs).1
  refine ⟨by simpa using s.len, ?_, s.own, fun t tb hq => ?_⟩
  case refine_2 =>
    by_cases e : ti = t
    · subst e; exact .inl ⟨o, ob, ho, ht⟩
    · simp only [List.getElem?_set_ne e] at hq
      exact s.old t tb hq
  intro i ob' hob'
  have hob'' : w.objs[i]? = some ob' := hob'
  by_cases e : i = o
  · subst e
    rw [ho] at hob''; cases hob''
    refine ⟨{ so with map := m' }, by simp [hso], h2, h3, h4, ?_, ?_⟩
    · intro h; rw [ht] at h; cases h
    · intro t h
      rw [ht] at h; cases h
      exact ⟨(h6 ti ht).1, t', by simp [hti], g, r⟩
  · obtain ⟨so2, k1, k2, k3, k4, k5, k6⟩ := s.obj i ob' hob''
    refine ⟨so2, by rw [List.getElem?_set_ne (fun x => e x.symm)]; exact k1, k2, k3, k4, k5, ?_⟩
    intro t h
    obtain ⟨kp, tb, htb, kg, kr⟩ := k6 t h
    have hne : ti ≠ t := by
      intro x; subst x
      exact e (s.own i o ob' ob ti hob'' ho h ht)
    exact ⟨kp, tb, by show (w.tables.set ti t')[t]? = _; rw [List.getElem?_set_ne hne]; exact htb, kg, kr⟩

theorem Sim.reqs {H : K → Nat} {w : World K V} {sp : List (SObj K V)} (s : Sim H w sp) (n : Nat) : Sim H { w with reqs := n } sp :=
  ⟨s.len, s.obj, s.own, s.old⟩

/-- The object gets a new table with the same map; its old table, if any, may have changed. -/
theorem Sim.move {H : K → Nat} {w : World K V} {sp : List (SObj K V)} (s : Sim H w sp) {o : Nat} {ob : Object} {so : SObj K V}
    (ho : w.objs[o]? = some ob) (hp : ob.props = true) (hs : sp[o]? = some so) {t' : Table K V}
    (g : Good H t') (r : Rep t' so.map) (tabs : List (Table K V)) (hl : tabs.length = w.tables.length)
    (hsame : ∀ t, ob.table ≠ some t → tabs[t]? = w.tables[t]?)
    (hshut : ∀ t tb, ob.table = some t → tabs[t]? = some tb → Shut tb) (n : Nat) :
    Sim H ⟨tabs ++ [t'], w.objs.set o { ob with table := some w.tables.length }, n⟩ sp := by
  obtain ⟨so', h1, h2, h3, h4, h5, h6⟩ := s.obj o ob ho
  rw [hs] at h1; cases h1
  have hlen : o < w.objs.length := (List.getElem?_eq_some_iff.mp ho).1
  have hold : ∀ (i : Nat) (ob' : Object) (t : Nat), w.objs[i]? = some ob' → ob'.table = some t → t < w.tables.length := by
    intro i ob' t hi ht
    obtain ⟨_, _, _, _, _, _, k6⟩ := s.obj i ob' hi
    obtain ⟨_, tb, htb, _⟩ := k6 t ht
    exact (List.getElem?_eq_some_iff.mp htb).1
  refine ⟨by simpa using s.len, ?_, ?_, ?_⟩
  case refine_3 =>
    intro t tb hq
    simp only at hq
    by_cases e : t < tabs.length
    · rw [List.getElem?_append_left e] at hq
      by_cases h : ob.table = some t
      · exact .inr (hshut t tb h hq)
      · rw [hsame t h] at hq
        rcases s.old t tb hq with ⟨i, ob', hi, hti⟩ | hsh
        · refine .inl ⟨i, ob', ?_, hti⟩
          have : i ≠ o := by
            intro x; subst x
            rw [ho] at hi; cases hi; exact h hti
          simp only
          rw [List.getElem?_set_ne (fun x => this x.symm)]
          exact hi
        · exact .inr hsh
    · have e2 := (List.getElem?_eq_some_iff.mp hq).1
      simp only [List.length_append, List.length_cons, List.length_nil] at e2
      have : t = w.tables.length := by omega
      subst this
      exact .inl ⟨o, _, List.getElem?_set_self hlen, rfl⟩
  · intro i ob' hob'
    simp only at hob'
    by_cases e : i = o
    · subst e
      rw [List.getElem?_set_self hlen] at hob'; cases hob'
      refine ⟨so, hs, h2, h3, h4, by simp, ?_⟩
      intro t h
      cases h
      exact ⟨hp, t', by simp [← hl], g, r⟩
    · rw [List.getElem?_set_ne (fun x => e x.symm)] at hob'
      obtain ⟨so2, k1, k2, k3, k4, k5, k6⟩ := s.obj i ob' hob'
      refine ⟨so2, k1, k2, k3, k4, k5, ?_⟩
      intro t h
      obtain ⟨kp, tb, htb, kg, kr⟩ := k6 t h
      refine ⟨kp, tb, ?_, kg, kr⟩
      have hlt := hold i ob' t hob' h
      simp only
      rw [List.getElem?_append_left (by omega), hsame t ?_]
      · exact htb
      · intro x
        exact e (s.own i o ob' ob t hob' ho h x)
  · intro i j oi oj t hi hj hti htj
    simp only at hi hj
    by_cases ei : i = o
    · by_cases ej : j = o
      · rw [ei, ej]
      · subst ei
        rw [List.getElem?_set_self hlen] at hi; cases hi
        rw [List.getElem?_set_ne (fun x => ej x.symm)] at hj
        cases hti
        have := hold j oj _ hj htj; omega
    · rw [List.getElem?_set_ne (fun x => ei x.symm)] at hi
      by_cases ej : j = o
      · subst ej
        rw [List.getElem?_set_self hlen] at hj; cases hj
        cases htj
        have := hold i oi _ hi hti; omega
      · rw [List.getElem?_set_ne (fun x => ej x.symm)] at hj
        exact s.own i j oi oj t hi hj hti htj

theorem two_pow_inj {a b : Nat} (h : 2 ^ a = 2 ^ b) : a = b := by
  rcases Nat.lt_trichotomy a b with c | c | c
  · have := Nat.pow_lt_pow_right (show 1 < 2 by omega) c; omega
  · exact c
  · have := Nat.pow_lt_pow_right (show 1 < 2 by omega) c; omega

theorem World.obj_ok {w : World K V} {o : Nat} {ob : Object} (h : w.objs[o]? = some ob) : w.obj o = .ok ob := by simp [World.obj, h]
theorem World.table_ok {w : World K V} {o : Nat} {t : Table K V} (h : w.tables[o]? = some t) : w.table o = .ok t := by simp [World.table, h]

theorem newTable_ub {cap : Nat} (h : cap = 268435456) : (newTable cap : Except Err (Table K V)) = .error .ub := by
  subst h; unfold newTable allocSize; rw [if_neg (by omega)]

/-- Growing the table of an object. -/
theorem resize_spec {H : K → Nat} (mem : Nat → Nat → Bool) {w : World K V} {sp : List (SObj K V)} (s : Sim H w sp) {o ti j : Nat} {ob : Object}
    {t : Table K V} (ho : w.objs[o]? = some ob) (ht : ob.table = some ti) (htb : w.tables[ti]? = some t) (hj : t.cap = 2 ^ j) :
    (resize mem w o (some ti) 2 = .ok ({ w with reqs := w.reqs + 1 }, false) ∧ Refused mem w.reqs (w.reqs + 1) ∧
      Sim H { w with reqs := w.reqs + 1 } sp) ∨
    (j + 1 ≤ 27 ∧ ∃ w' ob' t', resize mem w o (some ti) 2 = .ok (w', true) ∧ w'.reqs = w.reqs + 1 ∧ Sim H w' sp ∧ w'.objs[o]? = some ob' ∧
      ob'.table = some w.tables.length ∧ ob'.props = ob.props ∧ w'.tables[w.tables.length]? = some t' ∧ t'.cap = 2 ^ (j + 1) ∧
      ∀ i < t'.cap, ∀ k, (t'.items i).key = some k → ∃ q < t.cap, (t.items q).key = some k) ∨
    (j = 27 ∧ mem w.reqs 268435456 = true ∧ resize mem w o (some ti) 2 = .error .ub) := by
  obtain ⟨so, h1, h2, h3, h4, h5, h6⟩ := s.obj o ob ho
  obtain ⟨hp, tb, htb', g, r⟩ := h6 ti ht
  rw [htb] at htb'; cases htb'
  have hb := g.pos
  have hj27 : j ≤ 27 := by
    obtain ⟨j', _, h27, e⟩ := g.pow
    have : j = j' := two_pow_inj (hj.symm.trans e)
    omega
  have hj2 : 2 ≤ j := by
    obtain ⟨j', h2, _, e⟩ := g.pow
    have : j = j' := two_pow_inj (hj.symm.trans e)
    omega
  have hcap : t.cap * 2 % 4294967296 = 2 ^ (j + 1) := by
    rw [Nat.mod_eq_of_lt (by omega), hj, Nat.pow_succ]
  have hle : t.cap ≤ 2 ^ (j + 1) := by rw [hj]; exact Nat.pow_le_pow_right (by omega) (by omega)
  simp only [resize, World.obj_ok ho, World.table_ok htb, bind, Except.bind, g.next, Option.isSome_none, Bool.false_eq_true, if_false]
  rw [if_pos (show t.cap ≠ 0 by omega), hcap]
  cases hm : mem w.reqs (2 ^ (j + 1)) with
  | false =>
    left
    exact ⟨by simp, ⟨w.reqs, _, Nat.le_refl _, by omega, hm⟩, s.reqs _⟩
  | true =>
    right
    by_cases e27 : j = 27
    · right
      subst e27
      refine ⟨rfl, hm, ?_⟩
      rw [newTable_ub (by decide)]
      simp
    · left
      have hp27 : 2 ^ (j + 1) ≤ 134217728 := Nat.pow_le_pow_right (n := 2) (by omega) (show j + 1 ≤ 27 by omega)
      refine ⟨by omega, ?_⟩
      rw [newTable_ok hp27 (Nat.two_pow_pos _)]
      obtain ⟨old, new, hc, gn, rn, cn, un, co, nx, sh, fk⟩ := copyTable_spec g r (some w.tables.length) (j := j + 1) (by omega) (by omega) hle
      simp only [if_true]
      rw [hc]
      simp only [ht, if_true]
      have hlen : o < w.objs.length := (List.getElem?_eq_some_iff.mp ho).1
      refine ⟨_, { ob with table := some w.tables.length }, new, rfl, rfl, ?_, ?_, rfl, rfl, ?_, cn, fk⟩
      · refine s.move ho hp h1 gn rn (w.tables.set ti old) (by simp) ?_ ?_ (w.reqs + 1)
        · intro t hne
          rw [List.getElem?_set_ne]
          intro e; subst e; exact hne ht
        · intro t' tb e hq
          rw [ht] at e; cases e
          have hti := (List.getElem?_eq_some_iff.mp htb).1
          rw [List.getElem?_set_self hti] at hq; cases hq
          refine ⟨fun i hi => ?_, fun i hi j hj k h1 h2 => ?_⟩
          · rw [co] at hi; rw [sh i hi]
          · rw [co] at hi hj
            rw [sh i hi] at h1; rw [sh j hj] at h2
            exact g.uniq i hi j hj k h1 h2
      · simp [hlen]
      · simp

/-- The first table of an object. -/
theorem resize_first {H : K → Nat} (mem : Nat → Nat → Bool) {w : World K V} {sp : List (SObj K V)} (s : Sim H w sp) {o : Nat} {ob : Object}
    (ho : w.objs[o]? = some ob) (hp : ob.props = true) (ht : ob.table = none) :
    (resize mem w o none 0 = .ok ({ w with reqs := w.reqs + 1 }, false) ∧ Refused mem w.reqs (w.reqs + 1) ∧
      Sim H { w with reqs := w.reqs + 1 } sp) ∨
    (∃ w' ob' t', resize mem w o none 0 = .ok (w', true) ∧ w'.reqs = w.reqs + 1 ∧ Sim H w' sp ∧ w'.objs[o]? = some ob' ∧
      ob'.table = some w.tables.length ∧ ob'.props = ob.props ∧ w'.tables[w.tables.length]? = some t' ∧ t'.cap = 2 ^ 2) := by
  obtain ⟨so, h1, h2, h3, h4, h5, h6⟩ := s.obj o ob ho
  simp only [resize, World.obj_ok ho, bind, Except.bind]
  cases hm : mem w.reqs 4 with
  | false =>
    left
    exact ⟨by simp, ⟨w.reqs, _, Nat.le_refl _, by omega, hm⟩, s.reqs _⟩
  | true =>
    right
    rw [newTable_ok (by omega) (by omega)]
    simp only [if_true]
    have hlen : o < w.objs.length := (List.getElem?_eq_some_iff.mp ho).1
    refine ⟨_, { ob with table := some w.tables.length }, ⟨4, 0, 4, 0, none, fun _ => ⟨none, 0, .tomb⟩⟩, rfl, rfl, ?_, ?_, rfl, rfl, ?_, rfl⟩
    · refine s.move ho hp h1 (good_new H (j := 2) (by omega) (by omega)) ?_ w.tables rfl (fun _ _ => rfl)
        (fun t tb e => by rw [ht] at e; cases e) (w.reqs + 1)
      rw [h5 ht]; exact rep_new
    · simp [hlen]
    · simp

theorem sp_set_self {sp : List (SObj K V)} {o : Nat} {so : SObj K V} (h : sp[o]? = some so) : sp.set o so = sp := by
  apply List.ext_getElem?
  intro i
  by_cases e : o = i
  · subst e; rw [List.getElem?_set_self (List.getElem?_eq_some_iff.mp h).1, h]
  · rw [List.getElem?_set_ne e]

theorem upd_same {m : K → Option V} {k : K} {o : Option V} (h : m k = o) : upd m k o = m := by
  funext k'; unfold upd; split
  · rename_i e; rw [e, h]
  · rfl

theorem Val.of_tomb (ov : Option V) : (Val.of ov matches .tomb) = ov.isNone := by cases ov <;> rfl

/-- One attempt to write. -/
theorem setOnce_spec {H : K → Nat} (mem : Nat → Nat → Bool) (dyn : V → Bool) {w : World K V} {sp : List (SObj K V)} (s : Sim H w sp) {o ti j : Nat}
    {ob : Object} {t : Table K V} {so : SObj K V} (ho : w.objs[o]? = some ob) (ht : ob.table = some ti) (htb : w.tables[ti]? = some t)
    (hj : t.cap = 2 ^ j) (hs : sp[o]? = some so) (k : K) (ov : Option V) :
    (setOnce mem dyn w o ti k (H k) (Val.of ov) = .ok ({ w with reqs := w.reqs + 1 }, ti, .failed) ∧ Refused mem w.reqs (w.reqs + 1)) ∨
    (j + 1 ≤ 27 ∧ ∃ w' ob' ti' t', setOnce mem dyn w o ti k (H k) (Val.of ov) = .ok (w', ti', .again) ∧ w'.reqs = w.reqs + 1 ∧ Sim H w' sp ∧
      w'.objs[o]? = some ob' ∧ ob'.table = some ti' ∧ w'.tables[ti']? = some t' ∧ t'.cap = 2 ^ (j + 1)) ∨
    (j = 27 ∧ mem w.reqs 268435456 = true ∧ setOnce mem dyn w o ti k (H k) (Val.of ov) = .error .ub) ∨
    (∃ d, setOnce mem dyn w o ti k (H k) (Val.of ov) = .ok (w, ti, .setter d) ∧ ov.isSome ∧ so.map k = some d ∧ dyn d = true) ∨
    (∃ w' n t', setOnce mem dyn w o ti k (H k) (Val.of ov) = .ok (w', ti, .success n) ∧ w'.reqs = w.reqs ∧ w'.objs = w.objs ∧
      Sim H w' (Spec.bind sp o k ov) ∧ w'.tables[ti]? = some t' ∧ t'.cap = 2 ^ j ∧
      (ov.isSome → ∀ d, so.map k = some d → dyn d = false)) := by
  obtain ⟨so', h1, h2, h3, h4, h5, h6⟩ := s.obj o ob ho
  rw [hs] at h1; cases h1
  obtain ⟨hp, tb, htb', g, r⟩ := h6 ti ht
  rw [htb] at htb'; cases htb'
  have hti : ti < w.tables.length := (List.getElem?_eq_some_iff.mp htb).1
  obtain ⟨d, hd, sk, hcase⟩ := probe_spec g k 11 0 (H k) (by omega) (by omega) (Skip.zero _ _ _) (by simp)
  unfold setOnce
  simp only [World.table_ok htb, bind, Except.bind]
  rcases hcase with ⟨hk, hpr⟩ | ⟨hk, hpr⟩ | ⟨sk10, hpr⟩
  · rw [hpr]
    simp only
    have hlt := g.lt (H k + d)
    have hab := Skip.absent g sk (Or.inl hk)
    have hm : so.map k = none := by
      cases e : so.map k with
      | none => rfl
      | some v => obtain ⟨i, hi, h1, _⟩ := (r k v).mp e; exact absurd h1 (hab i hi)
    right; right; right; right
    cases ov with
    | none =>
      refine ⟨w, d, t, by simp [Val.of], rfl, rfl, ?_, htb, hj, by simp⟩
      rw [bind_some hs, upd_same hm]
      rw [sp_set_self hs]; exact s
    | some v =>
      have hdc : d < t.cap := by
        apply Classical.byContradiction
        intro hc
        have hb := g.pos
        obtain ⟨e, he, ee⟩ := reach (H k) ((H k + d) % t.cap) hlt
        obtain ⟨k', hk', _⟩ := sk e (by omega)
        rw [ee, hk] at hk'; cases hk'
      obtain ⟨g', r'⟩ := good_insert g r k (some v) sk hdc hk
      refine ⟨{ w with tables := w.tables.set ti { t.setItem ((H k + d) % t.cap) ⟨some k, H k, .val v⟩ with used := t.used + 1 } }, d,
        { t.setItem ((H k + d) % t.cap) ⟨some k, H k, .val v⟩ with used := t.used + 1 }, ?_, rfl, rfl, ?_, by simp [hti], hj, by simp [hm]⟩
      · simp [Val.of, g.empty _ hlt hk, Table.setItem]
      rw [bind_some hs]
      exact s.write ho ht hs g' r'
  · rw [hpr]
    simp only
    have hlt := g.lt (H k + d)
    have hl := g.live _ hlt
    have hmv : ∀ v, so.map k = some v → (t.items ((H k + d) % t.cap)).val = .val v := by
      intro v hv
      obtain ⟨i, hi, h1, h2⟩ := (r k v).mp hv
      rw [← g.uniq i hi _ hlt k h1 hk]; exact h2
    obtain ⟨g', r'⟩ := good_write g r k ov hlt hk
    have hw := s.write ho ht hs g' r'
    rw [← bind_some hs] at hw
    right; right; right
    cases hv : (t.items ((H k + d) % t.cap)).val with
    | closed => exact absurd hv hl.1
    | reserved => exact absurd hv hl.2
    | tomb =>
      right
      refine ⟨_, d, _, rfl, rfl, rfl, hw, List.getElem?_set_self hti, hj, ?_⟩
      intro _ x hx
      have := hmv x hx; rw [hv] at this; cases this
    | val x =>
      simp only
      have hmx := (r k x).mpr ⟨_, hlt, hk, hv⟩
      by_cases hdy : dyn x = true ∧ ov.isSome
      · left
        obtain ⟨v, rfl⟩ := Option.isSome_iff_exists.mp hdy.2
        refine ⟨x, ?_, hdy.2, hmx, hdy.1⟩
        rw [if_pos ⟨hdy.1, by simp [Val.of]⟩]
      · right
        rw [if_neg (by
          intro hc
          apply hdy
          refine ⟨hc.1, ?_⟩
          cases ov with
          | none => exact absurd rfl hc.2
          | some _ => rfl)]
        refine ⟨_, d, _, rfl, rfl, rfl, hw, List.getElem?_set_self hti, hj, ?_⟩
        intro hs2 y hy
        have := hmv y hy; rw [hv] at this; cases this
        cases e : dyn x with
        | false => rfl
        | true => exact absurd ⟨e, hs2⟩ hdy
  · rw [hpr]
    simp only
    rcases resize_spec mem s ho ht htb hj with ⟨hr, hf, hsim⟩ | ⟨h27, w', ob', t', hr, hq, hsim, ho', ht', hp', htb', hc', _⟩ | ⟨h27, hm, hr⟩
    · left
      rw [hr]
      exact ⟨by simp, hf⟩
    · right; left
      refine ⟨h27, w', ob', _, t', ?_, hq, hsim, ho', ht', htb', hc'⟩
      rw [hr]
      simp only [if_true, World.obj_ok ho', ht']
    · right; right; left
      rw [hr]
      exact ⟨h27, hm, rfl⟩

theorem Refused.mono {mem : Nat → Nat → Bool} {a b a' b' : Nat} (r : Refused mem a b) (h1 : a' ≤ a) (h2 : b ≤ b') : Refused mem a' b' := by
  obtain ⟨n, c, x, y, z⟩ := r
  exact ⟨n, c, by omega, by omega, z⟩

theorem setLoop_spec {H : K → Nat} (mem : Nat → Nat → Bool) (dyn : V → Bool) (o : Nat) (k : K) (ov : Option V) :
    ∀ (fuel : Nat) {w : World K V} {sp : List (SObj K V)} (_ : Sim H w sp) {ti j : Nat} {ob : Object} {t : Table K V}
      (_ : w.objs[o]? = some ob) (_ : ob.table = some ti) (_ : w.tables[ti]? = some t) (_ : t.cap = 2 ^ j) (_ : 29 ≤ fuel + j),
      (Huge mem ∧ setLoop mem dyn o k (H k) (Val.of ov) fuel w ti = .error .ub) ∨
      ∃ w' out sp', setLoop mem dyn o k (H k) (Val.of ov) fuel w ti = .ok (w', out) ∧ w.reqs ≤ w'.reqs ∧ Sim H w' sp' ∧
        Spec.Wrote dyn sp o k ov out sp' ∧ (out = .oom → Refused mem w.reqs w'.reqs) := by
  intro fuel
  induction fuel with
  | zero =>
    intro w sp s ti j ob t ho ht htb hj hf
    obtain ⟨so, h1, h2, h3, h4, h5, h6⟩ := s.obj o ob ho
    obtain ⟨hp, tb, htb', g, r⟩ := h6 ti ht
    rw [htb] at htb'; cases htb'
    obtain ⟨j', _, h27, e⟩ := g.pow
    have : j = j' := two_pow_inj (hj.symm.trans e)
    omega
  | succ fuel ih =>
    intro w sp s ti j ob t ho ht htb hj hf
    obtain ⟨so, h1, h2, h3, h4, h5, h6⟩ := s.obj o ob ho
    rw [setLoop]
    rcases setOnce_spec mem dyn s ho ht htb hj h1 k ov with ⟨hr, hf⟩ | ⟨h27, w', ob', ti', t', hr, hq, hsim, ho', ht', htb', hc'⟩ |
        ⟨h27, hm, hr⟩ | ⟨d, hr, hi, hmd, hdy⟩ | ⟨w', n, t', hr, hq, hobj, hsim, htb', hc', hnd⟩
    · right
      rw [hr]
      exact ⟨_, .oom, sp, rfl, Nat.le_succ _, s.reqs _, ⟨so, h1, Or.inr (Or.inr ⟨rfl, rfl⟩)⟩, fun _ => hf⟩
    · rw [hr]
      simp only [bind, Except.bind]
      rcases ih hsim ho' ht' htb' hc' (by omega) with h | ⟨w2, out, sp', hr2, hq2, hs2, hw2, hf2⟩
      · exact Or.inl h
      · right
        exact ⟨w2, out, sp', hr2, by omega, hs2, hw2, fun e => (hf2 e).mono (by omega) (Nat.le_refl _)⟩
    · left
      rw [hr]
      exact ⟨⟨_, _, Nat.le_refl _, hm⟩, rfl⟩
    · right
      rw [hr]
      exact ⟨_, _, sp, rfl, Nat.le_refl _, s, ⟨so, h1, Or.inl ⟨d, hi, hmd, hdy, rfl, rfl⟩⟩, by simp⟩
    · rw [hr]
      simp only [bind, Except.bind, World.table_ok htb']
      by_cases hn : needResize t' n = true
      · rw [if_pos hn]
        have ho' : w'.objs[o]? = some ob := by rw [hobj]; exact ho
        rcases resize_spec mem hsim ho' ht htb' hc' with ⟨hr2, hf2, hsim2⟩ | ⟨h27, w2, ob2, t2, hr2, hq2, hsim2, _⟩ | ⟨h27, hm, hr2⟩
        · right
          rw [hr2]
          exact ⟨_, _, _, rfl, by simp; omega, hsim2, ⟨so, h1, Or.inr (Or.inl ⟨hnd, Or.inr rfl, rfl⟩)⟩,
            fun _ => hf2.mono (by omega) (Nat.le_refl _)⟩
        · right
          rw [hr2]
          exact ⟨_, _, _, rfl, by simp only; omega, hsim2, ⟨so, h1, Or.inr (Or.inl ⟨hnd, Or.inl rfl, rfl⟩)⟩, by simp⟩
        · left
          rw [hr2]
          exact ⟨⟨_, _, Nat.le_refl _, hm⟩, rfl⟩
      · right
        rw [if_neg hn]
        exact ⟨_, _, _, rfl, by omega, hsim, ⟨so, h1, Or.inr (Or.inl ⟨hnd, Or.inl rfl, rfl⟩)⟩, by simp⟩

end Verif.Obj
