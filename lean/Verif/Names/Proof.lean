import Verif.Names.Model
import Verif.Names.Spec
/-
  The model of the compiler finds the meaning given by the specification.
-/
namespace Verif.Names

open Spec (Bind Ref Vis)

/-- The functions of a stack of scopes. -/
def fnsOf (sc : List Scope) : List Nat := sc.filterMap Scope.fn

def toBind (p : Var × List Scope) : Bind := ⟨p.1.name, p.1.node, p.1.kind, fnsOf p.2⟩

/-- The last scope is global. -/
def rootOk : List Scope → Prop
  | [] => False
  | [s] => s.fn = none
  | _ :: t :: r => rootOk (t :: r)

structure Rel (sc : List Scope) (v : Vis) (fs : List Nat) : Prop where
  look : ∀ x, (lookOuter sc x).map toBind = Spec.look v.binds x
  here : ∀ x, findLocal sc x = true ↔ x ∈ v.here
  fns  : fnsOf sc = fs
  root : rootOk sc

/-- A scope with more variables. -/
structure Grow (s s' : Scope) : Prop where
  fn : s'.fn = s.fn
  defer : s'.defer = s.defer
  find : ∀ y w, find s.vars y = some w → find s'.vars y = some w

structure Ext (a b : List Scope) : Prop where
  ex : ∃ s s' t, a = s :: t ∧ b = s' :: t ∧ Grow s s'

theorem Grow.trans {a b c : Scope} (h : Grow a b) (k : Grow b c) : Grow a c :=
  ⟨k.fn.trans h.fn, k.defer.trans h.defer, fun y w hy => k.find y w (h.find y w hy)⟩

theorem Grow.refl (a : Scope) : Grow a a := ⟨rfl, rfl, fun _ _ h => h⟩

theorem Ext.trans {a b c : List Scope} (h0 : Ext a b) (k0 : Ext b c) : Ext a c := by
  obtain ⟨s, s', t, rfl, rfl, h⟩ := h0.ex
  obtain ⟨u, u', t', e, rfl, k⟩ := k0.ex
  injection e with e1 e2
  subst e1 e2
  exact ⟨_, _, _, rfl, rfl, Grow.trans h k⟩

theorem Ext.refl {a : List Scope} (h : rootOk a) : Ext a a := by
  cases a with
  | nil => cases h
  | cons s t => exact ⟨_, _, _, rfl, rfl, Grow.refl s⟩

theorem Ext.tail {s : Scope} {a b : List Scope} (h : Ext (s :: a) b) : b.tail = a := by
  obtain ⟨s, s', t, e, rfl, _⟩ := h.ex
  injection e with _ e2
  simp [e2]

theorem rootOk_cons {s : Scope} {t : List Scope} (h : rootOk t) : rootOk (s :: t) := by
  cases t with
  | nil => cases h
  | cons _ _ => exact h

theorem rootOk_top {s s' : Scope} {t : List Scope} (h : rootOk (s :: t)) (hf : s'.fn = s.fn) :
    rootOk (s' :: t) := by
  cases t with
  | nil => simpa [rootOk, hf] using h
  | cons _ _ => exact h

/- Finding variables -/

theorem find_name {vs : List Var} {x : Nat} {v : Var} (h : find vs x = some v) : v.name = x := by
  induction vs with
  | nil => cases h
  | cons w r ih =>
    simp only [find] at h
    split at h
    · injection h with h; subst h; assumption
    · exact ih h

theorem find_set (b : Bool) (x y : Nat) (vs : List Var) :
    find (setVars b x vs) y =
      if y = x then (find vs y).map (fun v => { v with act := b }) else find vs y := by
  induction vs with
  | nil => simp [setVars, find]
  | cons w r ih =>
    by_cases hw : w.name = x
    · by_cases hy : y = x
      · subst hy; simp [setVars, find, hw]
      · have hn : w.name ≠ y := fun h => hy (h ▸ hw)
        have hn' : x ≠ y := fun h => hy h.symm
        simp [setVars, find, hw, hy, hn']
    · by_cases hy : y = x
      · subst hy
        simp only [if_true] at ih
        simp [setVars, find, hw, ih]
      · simp only [if_neg hy] at ih
        simp [setVars, find, hw, ih, hy]

theorem set_set (x : Nat) (vs : List Var) (v : Var) (h : find vs x = some v)
    (ha : v.act = false) : setVars false x (setVars true x vs) = vs := by
  induction vs with
  | nil => rfl
  | cons w r ih =>
    by_cases hw : w.name = x
    · simp only [find, hw, if_true] at h
      injection h with h
      subst h
      cases w
      simp_all [setVars]
    · simp only [find, hw, if_false] at h
      simp [setVars, hw, ih h]

theorem seen_some {vs : List Var} {x : Nat} {v : Var} :
    seen vs x = some v ↔ find vs x = some v ∧ v.act = true := by
  unfold seen
  split <;> grind

theorem findLocal_top {s : Scope} {t : List Scope} {x : Nat} (h : findLocal (s :: t) x = false) :
    find s.vars x = none := by
  simp only [findLocal] at h
  split at h
  · cases h
  · rename_i hh; simpa using hh

/- One more variable -/

theorem fnsOf_top {s s' : Scope} {t : List Scope} (h : s'.fn = s.fn) :
    fnsOf (s' :: t) = fnsOf (s :: t) := by
  simp [fnsOf, h, List.filterMap_cons]

theorem look_cons (b : Bind) (bs : List Bind) (x : Nat) :
    Spec.look (b :: bs) x = if b.name = x then some b else Spec.look bs x := by
  simp only [Spec.look, List.find?_cons]
  split <;> simp_all

theorem add_off {sc : List Scope} {v : Vis} {fs : List Nat} (R : Rel sc v fs) (w : Var)
    (hw : w.act = false) (hf : findLocal sc w.name = false) :
    Rel (addVar w sc) ⟨v.binds, w.name :: v.here⟩ fs ∧ Ext sc (addVar w sc) := by
  cases sc with
  | nil => cases R.root
  | cons s t =>
    have hn := findLocal_top hf
    refine ⟨⟨?_, ?_, ?_, ?_⟩, ⟨s, _, t, rfl, rfl, rfl, rfl, ?_⟩⟩
    · intro x
      rw [← R.look x]
      simp only [addVar, lookOuter, seen, find]
      by_cases hx : w.name = x
      · subst hx; simp [hw, hn]
      · simp only [if_neg hx]
        split <;> first | rfl | (simp [toBind, fnsOf, List.filterMap_cons])
    · intro x
      have := R.here x
      simp only [findLocal, addVar, find, List.mem_cons] at this ⊢
      by_cases hx : w.name = x
      · simp [hx]
      · have hx' : ¬ x = w.name := fun h => hx h.symm
        simp only [if_neg hx, hx', false_or]
        exact this
    · rw [← R.fns]; rfl
    · exact rootOk_top R.root rfl
    · intro y u hy
      simp only [find]
      by_cases hx : w.name = y
      · subst hx; rw [hn] at hy; cases hy
      · simp only [if_neg hx]; exact hy

theorem set_on {s : Scope} {t : List Scope} {v : Vis} {fs : List Nat} (R : Rel (s :: t) v fs)
    (x : Nat) (w : Var) (hw : find s.vars x = some w) :
    Rel (setAt true x (s :: t)) ⟨⟨w.name, w.node, w.kind, fs⟩ :: v.binds, v.here⟩ fs := by
  have hn := find_name hw
  refine ⟨?_, ?_, ?_, ?_⟩
  · intro y
    rw [look_cons]
    simp only [setAt, lookOuter, seen, find_set]
    by_cases hy : y = x
    · subst hy
      simp only [hw, hn, if_true, Option.map_some, toBind]
      have := R.fns
      simp [fnsOf, List.filterMap_cons] at this ⊢
      exact this
    · have hy' : ¬ w.name = y := fun h => hy (h.symm.trans hn)
      simp only [hy, if_false, if_neg hy']
      rw [← R.look y]
      simp only [lookOuter, seen]
      split <;> first | rfl | (simp [toBind, fnsOf, List.filterMap_cons])
  · intro y
    rw [← R.here y]
    simp only [setAt, findLocal, find_set]
    split <;> simp
  · rw [← R.fns]; rfl
  · exact rootOk_top R.root rfl

/- Variables declared together -/

theorem defineAll_off (k : Kind) (xs : List Decl) : ∀ (st : St) (v : Vis) (fs : List Nat),
    Rel st.scopes v fs →
    match Spec.fresh xs v.here with
    | .error e => defineAll k false xs st = .error e
    | .ok h => ∃ sc, defineAll k false xs st = .ok { st with scopes := sc } ∧
        Rel sc ⟨v.binds, h⟩ fs ∧ Ext st.scopes sc ∧
        (∀ d ∈ xs, findLocal st.scopes d.name = false) ∧
        (∀ s t, sc = s :: t → ∀ d ∈ xs, find s.vars d.name = some ⟨d.name, d.node, k, false⟩) := by
  induction xs with
  | nil =>
    intro st v fs R
    refine ⟨st.scopes, rfl, R, Ext.refl R.root, ?_, ?_⟩
    · intro d hd; cases hd
    · intro s t _ d hd; cases hd
  | cons d r ih =>
    intro st v fs R
    simp only [Spec.fresh, defineAll, define]
    by_cases hd : d.name ∈ v.here
    · have := (R.here d.name).2 hd
      simp [hd, this]
    · have hf : findLocal st.scopes d.name = false := by
        cases h : findLocal st.scopes d.name with
        | false => rfl
        | true => exact absurd ((R.here d.name).1 h) hd
      obtain ⟨R1, X1⟩ := add_off R ⟨d.name, d.node, k, false⟩ rfl hf
      simp only [hd, hf, if_false, Bool.false_eq_true]
      have I := ih { st with scopes := addVar ⟨d.name, d.node, k, false⟩ st.scopes } _ fs R1
      simp only at I
      split
      · rename_i e he
        rw [he] at I
        exact I
      · rename_i h hh
        rw [hh] at I
        obtain ⟨sc, h1, h2, h3, h4, h5⟩ := I
        refine ⟨sc, h1, h2, X1.trans h3, ?_, ?_⟩
        · intro d' hd'
          rcases List.mem_cons.1 hd' with rfl | hm
          · exact hf
          · have := h4 d' hm
            cases hs : st.scopes with
            | nil => rfl
            | cons s t =>
              rw [hs] at this
              simp only [findLocal, addVar, find] at this ⊢
              split at this <;> simp_all
        · intro s t hs d' hd'
          rcases List.mem_cons.1 hd' with rfl | hm
          · obtain ⟨a, b, c, e1, e2, g⟩ := h3.ex
            rw [hs] at e2
            injection e2 with e2 e3
            subst e2
            refine g.find _ _ ?_
            cases hq : st.scopes with
            | nil => rw [hq] at e1; cases e1
            | cons s0 t0 =>
              rw [hq] at e1
              simp only [addVar] at e1
              injection e1 with e1 _
              rw [← e1]
              simp [find]
          · exact h5 s t hs d' hm

theorem activate_on (k : Kind) (xs : List Decl) : ∀ (st : St) (v : Vis) (fs : List Nat),
    Rel st.scopes v fs →
    (∀ s t, st.scopes = s :: t → ∀ d ∈ xs, ∃ a, find s.vars d.name = some ⟨d.name, d.node, k, a⟩) →
    ∃ sc, activate xs st = { st with scopes := sc } ∧
      Rel sc ⟨Spec.bindAll k fs xs v.binds, v.here⟩ fs ∧
      (∀ s t, st.scopes = s :: t → ∃ s', sc = s' :: t ∧ s'.fn = s.fn ∧ s'.defer = s.defer ∧
        ∀ y, (∀ d ∈ xs, d.name ≠ y) → find s'.vars y = find s.vars y) := by
  induction xs with
  | nil =>
    intro st v fs R _
    exact ⟨st.scopes, rfl, R, fun s t h => ⟨s, h, rfl, rfl, fun _ _ => rfl⟩⟩
  | cons d r ih =>
    intro st v fs R H
    cases hs : st.scopes with
    | nil => have := R.root; rw [hs] at this; cases this
    | cons s t =>
      obtain ⟨a, ha⟩ := H s t hs d List.mem_cons_self
      have R' : Rel (s :: t) v fs := hs ▸ R
      have R1 := set_on R' d.name _ ha
      have I := ih (setTop true d.name st) ⟨⟨d.name, d.node, k, fs⟩ :: v.binds, v.here⟩ fs
        (by simpa [setTop, hs] using R1)
        (by
          intro s1 t1 h1 d' hd'
          simp only [setTop, hs, setAt] at h1
          injection h1 with h1 _
          rw [← h1]
          obtain ⟨a', ha'⟩ := H s t hs d' (List.mem_cons_of_mem _ hd')
          simp only [find_set, ha']
          split
          · exact ⟨true, rfl⟩
          · exact ⟨a', rfl⟩)
      obtain ⟨sc, h1, h2, h3⟩ := I
      refine ⟨sc, h1, h2, ?_⟩
      intro s0 t0 h0
      injection h0 with e1 e2
      subst e1 e2
      obtain ⟨s', e1, e2, e3, e4⟩ := h3 _ t (by simp [setTop, hs, setAt]; rfl)
      refine ⟨s', e1, e2, e3, ?_⟩
      intro y hy
      rw [e4 y (fun d' hd' => hy d' (List.mem_cons_of_mem _ hd'))]
      simp only [find_set]
      rw [if_neg]
      exact fun h => hy d List.mem_cons_self h.symm

/-- Parameters are visible at once. -/
theorem add_on {sc : List Scope} {v : Vis} {fs : List Nat} (R : Rel sc v fs) (w : Var)
    (hw : w.act = true) (hf : findLocal sc w.name = false) :
    Rel (addVar w sc) ⟨⟨w.name, w.node, w.kind, fs⟩ :: v.binds, w.name :: v.here⟩ fs := by
  cases sc with
  | nil => cases R.root
  | cons s t =>
    refine ⟨?_, ?_, ?_, ?_⟩
    · intro x
      rw [look_cons]
      simp only [addVar, lookOuter, seen, find]
      by_cases hx : w.name = x
      · have := R.fns
        simp [hx, hw, toBind, fnsOf, List.filterMap_cons] at this ⊢
        exact this
      · simp only [if_neg hx]
        rw [← R.look x]
        simp only [lookOuter, seen]
        split <;> first | rfl | (simp [toBind, fnsOf, List.filterMap_cons])
    · intro x
      have := R.here x
      simp only [findLocal, addVar, find, List.mem_cons] at this ⊢
      by_cases hx : w.name = x
      · simp [hx]
      · have hx' : ¬ x = w.name := fun h => hx h.symm
        simp only [if_neg hx, hx', false_or]
        exact this
    · rw [← R.fns]; rfl
    · exact rootOk_top R.root rfl

theorem defineAll_on (k : Kind) (xs : List Decl) : ∀ (st : St) (v : Vis) (fs : List Nat),
    Rel st.scopes v fs →
    match Spec.fresh xs v.here with
    | .error e => defineAll k true xs st = .error e
    | .ok h => ∃ s s' t, st.scopes = s :: t ∧
        defineAll k true xs st = .ok { st with scopes := s' :: t } ∧
        s'.fn = s.fn ∧ s'.defer = s.defer ∧
        Rel (s' :: t) ⟨Spec.bindAll k fs xs v.binds, h⟩ fs := by
  induction xs with
  | nil =>
    intro st v fs R
    cases hs : st.scopes with
    | nil => have := R.root; rw [hs] at this; cases this
    | cons s t => exact ⟨s, s, t, rfl, by cases st; simp_all [defineAll], rfl, rfl, hs ▸ R⟩
  | cons d r ih =>
    intro st v fs R
    simp only [Spec.fresh, defineAll, define]
    by_cases hd : d.name ∈ v.here
    · have := (R.here d.name).2 hd
      simp [hd, this]
    · have hf : findLocal st.scopes d.name = false := by
        cases h : findLocal st.scopes d.name with
        | false => rfl
        | true => exact absurd ((R.here d.name).1 h) hd
      have R1 := add_on R ⟨d.name, d.node, k, true⟩ rfl hf
      simp only [hd, hf, if_false, Bool.false_eq_true]
      have I := ih { st with scopes := addVar ⟨d.name, d.node, k, true⟩ st.scopes } _ fs R1
      simp only at I
      split
      · rename_i e he
        rw [he] at I
        exact I
      · rename_i h hh
        rw [hh] at I
        obtain ⟨s, s', t, h1, h2, h3, h4, h5⟩ := I
        cases hs : st.scopes with
        | nil => rw [hs] at h1; cases h1
        | cons s0 t0 =>
          rw [hs] at h1
          simp only [addVar] at h1
          injection h1 with e1 e2
          subst e2
          rw [hs] at h2
          refine ⟨s0, s', t0, rfl, h2, ?_, ?_, h5⟩
          · rw [h3, ← e1]
          · rw [h4, ← e1]

/- Lookup -/

theorem frame_fns (sc : List Scope) : fnsOf (frameOf sc) = fnsOf sc := by
  induction sc with
  | nil => rfl
  | cons s t ih =>
    cases t with
    | nil => rfl
    | cons u r =>
      simp only [frameOf]
      split
      · rfl
      · rename_i h
        rw [ih]
        cases hf : s.fn with
        | none => simp [fnsOf, hf]
        | some _ => simp [hf] at h

theorem frame_owner {sc : List Scope} (h : rootOk sc) : ownerOf (frameOf sc) = (fnsOf sc).head? := by
  induction sc with
  | nil => cases h
  | cons s t ih =>
    cases t with
    | nil => simp only [rootOk] at h; simp [frameOf, ownerOf, fnsOf, h]
    | cons u r =>
      simp only [frameOf]
      split
      · rename_i hf
        cases hf' : s.fn with
        | none => simp [hf'] at hf
        | some f => simp [ownerOf, fnsOf, hf']
      · rename_i hf
        rw [ih h]
        cases hf' : s.fn with
        | none => simp [fnsOf, hf']
        | some f => simp [hf'] at hf

theorem frame_suffix (sc : List Scope) : ∃ pre, sc = pre ++ frameOf sc ∧ fnsOf pre = [] := by
  induction sc with
  | nil => exact ⟨[], rfl, rfl⟩
  | cons s t ih =>
    cases t with
    | nil => exact ⟨[], rfl, rfl⟩
    | cons u r =>
      simp only [frameOf]
      split
      · exact ⟨[], rfl, rfl⟩
      · rename_i h
        obtain ⟨pre, h1, h2⟩ := ih
        refine ⟨s :: pre, by rw [List.cons_append, ← h1], ?_⟩
        cases hf : s.fn with
        | none => simpa [fnsOf, hf] using h2
        | some _ => simp [hf] at h

theorem lookOuter_suffix {sc : List Scope} {x : Nat} {v : Var} {t : List Scope}
    (h : lookOuter sc x = some (v, t)) : ∃ pre, sc = pre ++ t := by
  induction sc with
  | nil => cases h
  | cons s r ih =>
    simp only [lookOuter] at h
    split at h
    · injection h with h; injection h with _ h; exact ⟨[], by simp [h]⟩
    · obtain ⟨p, hp⟩ := ih h
      exact ⟨s :: p, by simp [hp]⟩

theorem loop_none {sc : List Scope} {x : Nat} (h : loopLocal sc x = none) :
    lookOuter (frameOf sc) x = lookOuter sc x := by
  induction sc with
  | nil => rfl
  | cons s t ih =>
    cases t with
    | nil => rfl
    | cons u r =>
      simp only [frameOf]
      split
      · rfl
      · rename_i hf
        simp only [loopLocal, hf, Bool.false_eq_true, if_false] at h
        split at h
        · cases h
        · rename_i hs
          rw [ih (by simpa only [loopLocal] using h)]
          simp only [lookOuter, hs]

theorem loop_some {sc : List Scope} {x : Nat} {v : Var} (h : loopLocal sc x = some v) :
    ∃ t, lookOuter sc x = some (v, t) ∧ fnsOf t = fnsOf sc := by
  induction sc with
  | nil => cases h
  | cons s t ih =>
    simp only [loopLocal] at h
    split at h
    · cases h
    · rename_i hf
      have hf' : s.fn = none := by simpa using hf
      split at h
      · rename_i w hw
        injection h with h
        subst h
        exact ⟨s :: t, by simp [lookOuter, hw], rfl⟩
      · rename_i hw
        obtain ⟨t', h1, h2⟩ := ih h
        exact ⟨t', by simp [lookOuter, hw, h1], by rw [h2]; simp [fnsOf, hf']⟩

theorem inner_eq (pre c : List Scope) : inner (pre ++ c) c.length = fnsOf pre := by
  induction pre with
  | nil =>
    cases c with
    | nil => rfl
    | cons s r => simp [inner, fnsOf]
  | cons s r ih =>
    have : ¬ ((r ++ c).length + 1 = c.length) := by simp; omega
    simp only [List.cons_append, inner, if_neg this, ih]
    cases hf : s.fn with
    | none => simp [fnsOf, hf]
    | some f => simp [fnsOf, hf]

theorem mem_addRefs (cs : List (Nat × Option Nat)) : ∀ (l : List (Nat × Option Nat)) c,
    c ∈ cs.foldl addRef l ↔ c ∈ l ∨ c ∈ cs := by
  induction cs with
  | nil => intro l c; simp
  | cons a r ih =>
    intro l c
    rw [List.foldl_cons, ih]
    have : c ∈ addRef l a ↔ c ∈ l ∨ c = a := by
      unfold addRef
      split
      · rename_i h
        have : a ∈ l := by simpa using h
        constructor
        · exact Or.inl
        · rintro (h | rfl) <;> assumption
      · simp [or_comm]
    rw [this]
    simp [or_assoc]

/- What the compiler is told about a use -/

/-- The functions which keep the variables of the owner of the declaration. -/
def refClosures (r : Ref) : List (Nat × Option Nat) :=
  if r.decl.kind.glob then [] else r.crossed.map (fun f => (f, r.decl.funs.head?))

def refIndep (r : Ref) : Bool := !r.decl.kind.glob && !r.crossed.isEmpty

def refUse (r : Ref) : Use := ⟨r.use, r.decl.node, r.crossed.isEmpty || r.decl.kind.glob⟩

/-- The results of the pass between two states. -/
structure Tr (st st' : St) (rs : List Ref) : Prop where
  uses : st'.uses = st.uses ++ rs.map refUse
  closures : ∀ c, c ∈ st'.closures ↔ c ∈ st.closures ∨ ∃ r ∈ rs, c ∈ refClosures r
  indep : ∀ n, n ∈ st'.indep ↔ n ∈ st.indep ∨ ∃ r ∈ rs, refIndep r = true ∧ r.decl.node = n

theorem Tr.refl {st st' : St} (h1 : st'.uses = st.uses) (h2 : st'.closures = st.closures)
    (h3 : st'.indep = st.indep) : Tr st st' [] :=
  ⟨by simp [h1], by simp [h2], by simp [h3]⟩

theorem Tr.append {a b c : St} {p q : List Ref} (h : Tr a b p) (k : Tr b c q) :
    Tr a c (p ++ q) := by
  refine ⟨?_, ?_, ?_⟩
  · rw [k.uses, h.uses]; simp
  · intro x; rw [k.closures, h.closures]; simp only [List.mem_append]; grind
  · intro x; rw [k.indep, h.indep]; simp only [List.mem_append]; grind

theorem mark_tr {st : St} {v : Vis} {fs : List Nat} (R : Rel st.scopes v fs) (n x : Nat)
    (w : Var) (t : List Scope) (h : lookOuter (frameOf st.scopes) x = some (w, t)) :
    (mark n w t st).scopes = st.scopes ∧
    Tr st (mark n w t st) [⟨n, toBind (w, t), fs⟩] := by
  obtain ⟨p, hp, hpe⟩ := frame_suffix st.scopes
  obtain ⟨q, hq⟩ := lookOuter_suffix h
  obtain ⟨u, hu, hue⟩ := frame_suffix t
  have hfs : fs = fnsOf q ++ fnsOf t := by
    rw [← R.fns, ← frame_fns st.scopes, hq]; simp [fnsOf]
  obtain ⟨B, hB⟩ : ∃ B, B = toBind (w, t) := ⟨_, rfl⟩
  have hcr : (⟨n, B, fs⟩ : Ref).crossed = fnsOf q := by
    rw [hB]; simp [Ref.crossed, toBind, hfs]
  have hBk : B.kind = w.kind := by rw [hB]; rfl
  have hBn : B.node = w.node := by rw [hB]; rfl
  have hBf : B.funs = fnsOf t := by rw [hB]; rfl
  rw [← hB]
  have hroot : rootOk t := by
    have hr := R.root
    rw [hp, hq] at hr
    have aux : ∀ (l m : List Scope), m ≠ [] → rootOk (l ++ m) → rootOk m := by
      intro l
      induction l with
      | nil => intro m _ h; exact h
      | cons a b ih =>
        intro m hm h
        cases hb : b ++ m with
        | nil => simp at hb; exact absurd hb.2 hm
        | cons c d =>
          rw [List.cons_append, hb] at h
          exact ih m hm (by rw [hb]; exact h)
    rw [← List.append_assoc] at hr
    refine aux _ _ ?_ hr
    intro e
    subst e
    -- the variable is in the first scope of the stack
    have aux2 : ∀ (l : List Scope), lookOuter l x ≠ some (w, []) := by
      intro l
      induction l with
      | nil => intro h; cases h
      | cons a b ih =>
        intro h
        simp only [lookOuter] at h
        split at h
        · injection h with h; injection h with _ h; cases h
        · exact ih h
    exact aux2 _ h
  have hown : t.length = (frameOf st.scopes).length ↔ fnsOf q = [] := by
    rw [hq]
    constructor
    · intro hl
      have : q.length = 0 := by rw [List.length_append] at hl; omega
      have : q = [] := List.length_eq_zero_iff.1 this
      subst this; rfl
    · intro hl
      cases q with
      | nil => rfl
      | cons a b =>
        -- the first scope of a frame is of a function or global
        exfalso
        have aux : ∀ sc : List Scope, ∀ a b, frameOf sc = a :: b → a.fn.isSome = true ∨ b = [] := by
          intro sc
          induction sc with
          | nil => intro a b h; cases h
          | cons s r ih =>
            intro a b h
            cases r with
            | nil => simp only [frameOf] at h; injection h with _ h; exact Or.inr h.symm
            | cons u r =>
              simp only [frameOf] at h
              split at h
              · rename_i hs; injection h with h _; subst h; exact Or.inl hs
              · exact ih a b h
        rcases aux st.scopes a (b ++ t) (by rw [hq]; rfl) with h' | h'
        · cases hf : a.fn with
          | none => simp [hf] at h'
          | some f => simp [fnsOf, hf] at hl
        · have : t = [] := (List.append_eq_nil_iff.1 h').2
          subst this
          cases hroot
  have hin : inner st.scopes (frameOf t).length = fnsOf q := by
    rw [hp, hq, hu, ← List.append_assoc, ← List.append_assoc, ← hu, inner_eq]
    have h1 : fnsOf (p ++ q ++ u) = fnsOf p ++ fnsOf q ++ fnsOf u := by simp [fnsOf]
    rw [h1, hpe, hue]; simp
  have how : ownerOf (frameOf t) = (fnsOf t).head? := frame_owner hroot
  refine ⟨?_, ?_⟩
  · unfold mark
    simp only
    split <;> rfl
  · by_cases hl : t.length = (frameOf st.scopes).length
    · have he := hown.1 hl
      refine ⟨?_, ?_, ?_⟩
      · simp [mark, hl, refUse, hcr, he, hBn]
      · intro c; simp [mark, hl, refClosures, hcr, he]
      · intro m; simp [mark, hl, refIndep, hcr, he]
    · have he : fnsOf q ≠ [] := fun h => hl (hown.2 h)
      by_cases hg : w.kind.glob
      · refine ⟨?_, ?_, ?_⟩
        · simp [mark, hl, refUse, hBk, hBn, hg]
        · intro c; simp [mark, refClosures, hBk, hg]
        · intro m; simp [mark, refIndep, hBk, hg]
      · have hg' : w.kind.glob = false := by simpa using hg
        refine ⟨?_, ?_, ?_⟩
        · simp [mark, hl, refUse, hcr, hg', hBk, hBn, he]
        · intro c
          simp [mark, hl, hg', mem_addRefs, refClosures, hcr, hin, how, hBk, hBf]
        · intro m
          simp [mark, hl, hg', refIndep, hcr, hBk, hBn, he]
          grind

theorem ident_ok {st : St} {v : Vis} {fs : List Nat} (R : Rel st.scopes v fs) (n x : Nat) :
    match Spec.look v.binds x with
    | none => ident n x st = .error (.undefined n)
    | some b => ∃ w st', ident n x st = .ok (w, st') ∧ w.kind = b.kind ∧
        st'.scopes = st.scopes ∧ Tr st st' [⟨n, b, fs⟩] := by
  have hl := R.look x
  -- the search in the blocks of the function
  have key : (∃ w t, lookLocal st.scopes x = some w ∧ lookOuter st.scopes x = some (w, t) ∧
        fnsOf t = fnsOf st.scopes) ∨
      (lookLocal st.scopes x = none ∧
        lookOuter (frameOf st.scopes) x = lookOuter st.scopes x) := by
    cases hs : st.scopes with
    | nil => exact Or.inr ⟨rfl, rfl⟩
    | cons s r =>
      cases r with
      | nil => exact Or.inr ⟨rfl, rfl⟩
      | cons u r =>
        simp only [lookLocal]
        cases h : loopLocal (s :: u :: r) x with
        | none => exact Or.inr ⟨rfl, loop_none h⟩
        | some w =>
          obtain ⟨t, h1, h2⟩ := loop_some h
          exact Or.inl ⟨w, t, rfl, h1, h2⟩
  rcases key with ⟨w, t, h1, h2, h3⟩ | ⟨h1, h2⟩
  · rw [h2] at hl
    simp only [Option.map_some] at hl
    rw [← hl]
    obtain ⟨B, hB⟩ : ∃ B, B = toBind (w, t) := ⟨_, rfl⟩
    have hcr : (⟨n, B, fs⟩ : Ref).crossed = [] := by
      rw [hB]; simp [Ref.crossed, toBind, h3, R.fns]
    have hBn : B.node = w.node := by rw [hB]; rfl
    have hBk : B.kind = w.kind := by rw [hB]; rfl
    rw [← hB]
    refine ⟨w, { st with uses := st.uses ++ [⟨n, w.node, true⟩] }, by simp only [ident, h1],
      hBk.symm, rfl, ?_⟩
    refine ⟨?_, ?_, ?_⟩
    · simp [refUse, hcr, hBn]
    · intro c; simp [refClosures, hcr]
    · intro m; simp [refIndep, hcr]
  · rw [← h2] at hl
    cases h : lookOuter (frameOf st.scopes) x with
    | none =>
      rw [h] at hl
      simp only [Option.map_none] at hl
      rw [← hl]
      simp only [ident, h1, h]
    | some p =>
      obtain ⟨w, t⟩ := p
      rw [h] at hl
      simp only [Option.map_some] at hl
      rw [← hl]
      obtain ⟨h3, h4⟩ := mark_tr R n x w t h
      exact ⟨w, mark n w t st, by simp only [ident, h1, h], rfl, h3, h4⟩

/- The name of a function which is being defined -/

inductive SelfOk (sc : List Scope) (fs : List Nat) : Option Nat → Option Bind → Prop
  | none : SelfOk sc fs none none
  | some (s : Scope) (t : List Scope) (w : Var) (h : sc = s :: t)
      (hf : find s.vars w.name = Option.some w) (ha : w.act = false) :
      SelfOk sc fs (Option.some w.name) (Option.some ⟨w.name, w.node, w.kind, fs⟩)

theorem SelfOk.ext {sc sc' : List Scope} {fs : List Nat} {a : Option Nat} {b : Option Bind}
    (h : SelfOk sc fs a b) (k : Ext sc sc') : SelfOk sc' fs a b := by
  cases h with
  | none => exact .none
  | some s t w hs hf ha =>
    obtain ⟨s0, s', t', e1, e2, g⟩ := k.ex
    rw [hs] at e1
    injection e1 with e1 e3
    subst e1
    exact .some s' t' w e2 (g.find _ _ hf) ha

theorem SelfOk.method {sc : List Scope} {fs : List Nat} {a : Option Nat} {b : Option Bind}
    (h : SelfOk sc fs a b) (e : E) :
    SelfOk sc fs (methodSelf a e) (if Spec.isMethod e then b else Option.none) := by
  cases e <;> first | exact h | exact .none

theorem push_rel {sc : List Scope} {v : Vis} {fs : List Nat} (R : Rel sc v fs) (d : Bool) :
    Rel (⟨[], none, d⟩ :: sc) ⟨v.binds, if d then v.here else []⟩ fs := by
  refine ⟨?_, ?_, ?_, rootOk_cons R.root⟩
  · intro x; rw [← R.look x]; simp [lookOuter, seen, find]
  · intro x
    cases d with
    | true => simpa [findLocal, find] using R.here x
    | false => simp [findLocal, find]
  · rw [← R.fns]; simp [fnsOf]

theorem push_fn_rel {sc : List Scope} {v : Vis} {fs : List Nat} (R : Rel sc v fs) (f : Nat) :
    Rel (⟨[], some f, false⟩ :: sc) ⟨v.binds, []⟩ (f :: fs) := by
  refine ⟨?_, ?_, ?_, rootOk_cons R.root⟩
  · intro x; rw [← R.look x]; simp [lookOuter, seen, find]
  · intro x; simp [findLocal, find]
  · rw [← R.fns]; simp [fnsOf]

theorem bindAll_look (k : Kind) (fs : List Nat) (x : Nat) (xs : List Decl) :
    ∀ bs cs, Spec.look bs x = Spec.look cs x →
      Spec.look (Spec.bindAll k fs xs bs) x = Spec.look (Spec.bindAll k fs xs cs) x := by
  induction xs with
  | nil => intro bs cs h; exact h
  | cons d r ih =>
    intro bs cs h
    exact ih _ _ (by rw [look_cons, look_cons, h])

/-- The scopes below a function, with the function's own name visible. -/
def selfScopes : Option Nat → List Scope → List Scope
  | none, sc => sc
  | some x, sc => setAt true x sc

theorem self_rel {sc : List Scope} {v : Vis} {fs : List Nat} (R : Rel sc v fs)
    {a : Option Nat} {b : Option Bind} (h : SelfOk sc fs a b) :
    Rel (selfScopes a sc) ⟨b.toList ++ v.binds, v.here⟩ fs := by
  cases h with
  | none => exact R
  | some s t w hs hf ha =>
    subst sc
    exact set_on R w.name w hf

theorem setSelf_true (P : Scope) (sc : List Scope) (st : St) (a : Option Nat)
    (h : st.scopes = P :: sc) : setSelf true a st = { st with scopes := P :: selfScopes a sc } := by
  cases a with
  | none => cases st; simp_all [setSelf, selfScopes]
  | some x => simp [setSelf, selfScopes, h, setBelow]

theorem setSelf_false (P : Scope) (sc : List Scope) (st : St) {a : Option Nat} {b : Option Bind}
    {fs : List Nat} (k : SelfOk sc fs a b) (h : st.scopes = P :: selfScopes a sc) :
    setSelf false a st = { st with scopes := P :: sc } := by
  cases k with
  | none => cases st; simp_all [setSelf, selfScopes]
  | some s t w hs hf ha =>
    subst sc
    simp [setSelf, selfScopes, h, setBelow, setAt, set_set w.name s.vars w hf ha]

/-- Parameters do not depend on the scopes around the function. -/
theorem defineAll_tail (k : Kind) (act : Bool) (t t' : List Scope) (xs : List Decl) :
    ∀ (s : Scope) (st st' : St), s.defer = false → st.scopes = s :: t →
      defineAll k act xs st = .ok st' → ∃ P, st' = { st with scopes := P :: t } ∧
        ∀ u : St, u.scopes = s :: t' → defineAll k act xs u = .ok { u with scopes := P :: t' } := by
  induction xs with
  | nil =>
    intro s st st' _ hs h
    simp only [defineAll, Except.ok.injEq] at h
    refine ⟨s, by rw [← h, ← hs], ?_⟩
    intro u hu
    simp only [defineAll, ← hu]
  | cons d r ih =>
    intro s st st' hd hs h
    have e : findLocal (s :: t) d.name = findLocal (s :: t') d.name := by
      simp [findLocal, hd]
    simp only [defineAll, define, hs, addVar] at h
    by_cases hf : findLocal (s :: t) d.name
    · simp [hf] at h
    · simp only [hf, Bool.false_eq_true, if_false] at h
      obtain ⟨P, h1, h2⟩ := ih { s with vars := ⟨d.name, d.node, k, act⟩ :: s.vars } _ _ hd rfl h
      refine ⟨P, h1, ?_⟩
      intro u hu
      simp only [defineAll, define, hu, addVar, ← e, hf, Bool.false_eq_true, if_false]
      exact h2 { u with scopes := _ } rfl

theorem fn_params {st : St} {v : Vis} {fs : List Nat} (R : Rel st.scopes v fs)
    {a : Option Nat} {b : Option Bind} (k : SelfOk st.scopes fs a b) (f : Nat) (ps : List Decl) :
    match Spec.fresh ps [] with
    | .error e => defineAll ⟨false, false⟩ true ps (push (some f) false st) = .error e
    | .ok h => ∃ P, defineAll ⟨false, false⟩ true ps (push (some f) false st) =
          .ok { st with scopes := P :: st.scopes } ∧
        Rel (P :: selfScopes a st.scopes)
          ⟨Spec.bindAll ⟨false, false⟩ (f :: fs) ps (b.toList ++ v.binds), h⟩ (f :: fs) := by
  have A := defineAll_on ⟨false, false⟩ ps (push (some f) false st) _ _ (push_fn_rel R f)
  have B := defineAll_on ⟨false, false⟩ ps
    (push (some f) false { st with scopes := selfScopes a st.scopes }) _ _
    (push_fn_rel (self_rel R k) f)
  simp only at A B
  split
  · rename_i e he
    rw [he] at A
    exact A
  · rename_i h hh
    rw [hh] at A B
    obtain ⟨s, s', t, e1, e2, _⟩ := A
    obtain ⟨u, u', t', f1, f2, _, _, f5⟩ := B
    obtain ⟨P, g1, g2⟩ := defineAll_tail _ _ st.scopes (selfScopes a st.scopes) ps
      ⟨[], some f, false⟩ (push (some f) false st) _ rfl rfl e2
    have g3 := g2 (push (some f) false { st with scopes := selfScopes a st.scopes }) rfl
    rw [f2] at g3
    simp only [Except.ok.injEq, St.mk.injEq, List.cons.injEq, and_true] at g3
    refine ⟨P, by rw [e2, g1]; rfl, ?_⟩
    rw [← g3.1, ← g3.2]
    exact f5

theorem visit_resolve : ∀ (e : E) (a : Option Nat) (b : Option Bind) (fs : List Nat) (st : St)
    (v : Vis), Rel st.scopes v fs → SelfOk st.scopes fs a b →
    match Spec.resolve b fs e v with
    | .error er => visit a e st = .error er
    | .ok (v', rs) => ∃ st', visit a e st = .ok st' ∧ Rel st'.scopes v' fs ∧
        Ext st.scopes st'.scopes ∧ Tr st st' rs := by
  intro e
  induction e with
  | nop =>
    intro a b fs st v R k
    exact ⟨st, rfl, R, Ext.refl R.root, Tr.refl rfl rfl rfl⟩
  | op x y ihx ihy =>
    intro a b fs st v R k
    have X := ihx none none fs st v R .none
    cases hx : Spec.resolve none fs x v with
    | error er =>
      rw [hx] at X
      simp only [Spec.resolve, hx, visit, X, bind, Except.bind]
    | ok p =>
      obtain ⟨v1, r1⟩ := p
      rw [hx] at X
      obtain ⟨s1, h1, R1, X1, T1⟩ := X
      have Y := ihy none none fs s1 v1 R1 .none
      cases hy : Spec.resolve none fs y v1 with
      | error er =>
        rw [hy] at Y
        simp only [Spec.resolve, hx, hy, visit, h1, Y, bind, Except.bind]
      | ok p =>
        obtain ⟨v2, r2⟩ := p
        rw [hy] at Y
        obtain ⟨s2, h2, R2, X2, T2⟩ := Y
        simp only [Spec.resolve, hx, hy, visit, h1, h2, bind, Except.bind, pure, Except.pure]
        exact ⟨s2, rfl, R2, X1.trans X2, T1.append T2⟩
  | use n x =>
    intro a b fs st v R k
    have I := ident_ok R n x
    simp only [Spec.resolve, visit]
    split at I
    · rename_i h
      simp only [h, I]
    · rename_i B h
      obtain ⟨w, s1, h1, h2, h3, h4⟩ := I
      simp only [h, h1]
      exact ⟨s1, rfl, h3 ▸ R, by rw [h3]; exact Ext.refl R.root, h4⟩
  | asg n x e ih =>
    intro a b fs st v R k
    have I := ident_ok R n x
    simp only [Spec.resolve, visit]
    split at I
    · rename_i h
      simp only [h, I]
    · rename_i B h
      obtain ⟨w, s1, h1, h2, h3, h4⟩ := I
      simp only [h, h1, h2]
      by_cases hc : B.kind.const
      · simp only [hc, if_true]
      · simp only [hc, Bool.false_eq_true, if_false]
        have J := ih none none fs s1 v (h3 ▸ R) .none
        cases he : Spec.resolve none fs e v with
        | error er =>
          rw [he] at J
          simp only [bind, Except.bind, J]
        | ok p =>
          obtain ⟨v2, r2⟩ := p
          rw [he] at J
          obtain ⟨s2, g2, R2, X2, T2⟩ := J
          simp only [bind, Except.bind, g2, pure, Except.pure]
          exact ⟨s2, rfl, R2, h3 ▸ X2, h4.append T2⟩
  | decl kd xs e ih =>
    intro a b fs st v R k
    have D := defineAll_off kd xs st v fs R
    simp only [Spec.resolve, visit]
    cases hf : Spec.fresh xs v.here with
    | error er =>
      rw [hf] at D
      simp only [bind, Except.bind, D]
    | ok h =>
      rw [hf] at D
      obtain ⟨sc, d1, d2, d3, d4, d5⟩ := D
      have J := ih none none fs { st with scopes := sc } _ d2 .none
      simp only [d1]
      cases he : Spec.resolve none fs e ⟨v.binds, h⟩ with
      | error er =>
        rw [he] at J
        simp only [bind, Except.bind, he, J]
      | ok p =>
        obtain ⟨v2, r2⟩ := p
        rw [he] at J
        obtain ⟨s2, g2, R2, X2, T2⟩ := J
        simp only [bind, Except.bind, he, g2, pure, Except.pure]
        obtain ⟨s, s', t, e1, e2, gr⟩ := X2.ex
        simp only at e1
        obtain ⟨sc', a1, a2, a3⟩ := activate_on kd xs s2 v2 fs R2 (by
          intro s3 t3 h3 d hd
          rw [e2] at h3
          injection h3 with h3 _
          subst h3
          exact ⟨false, gr.find _ _ (d5 s t e1 d hd)⟩)
        refine ⟨_, rfl, ?_, ?_, ?_⟩
        · rw [a1]; exact a2
        · rw [a1]
          obtain ⟨q, q', t', f1, f2, gq⟩ := d3.ex
          rw [e1] at f2
          injection f2 with f2 f3
          subst f2 f3
          obtain ⟨s4, k1, k2, k3, k4⟩ := a3 _ _ e2
          refine ⟨q, s4, t, f1, k1, ?_, ?_, ?_⟩
          · rw [k2, gr.fn, gq.fn]
          · rw [k3, gr.defer, gq.defer]
          · intro y w hy
            rw [k4 y]
            · exact gr.find _ _ (gq.find _ _ hy)
            · intro d hd he
              have := d4 d hd
              rw [f1] at this
              have := findLocal_top this
              rw [he, hy] at this
              cases this
        · rw [a1]
          exact ⟨T2.uses, T2.closures, T2.indep⟩
  | self kd x e ih =>
    intro a b fs st v R k
    have D := defineAll_off kd [x] st v fs R
    simp only [Spec.resolve, visit]
    have hdef : ∀ r, defineAll kd false [x] st = r → define kd false x st = r := by
      intro r hr
      simp only [defineAll] at hr
      rw [← hr]
      cases define kd false x st <;> rfl
    cases hf : Spec.fresh [x] v.here with
    | error er =>
      rw [hf] at D
      simp only [bind, Except.bind, hdef _ D]
    | ok h =>
      rw [hf] at D
      obtain ⟨sc, d1, d2, d3, d4, d5⟩ := D
      obtain ⟨q, q', t', f1, f2, gq⟩ := d3.ex
      have hx := d5 _ _ f2 x List.mem_cons_self
      have J := ih (some x.name) (some ⟨x.name, x.node, kd, fs⟩) fs { st with scopes := sc } _ d2
        (SelfOk.some q' t' ⟨x.name, x.node, kd, false⟩ f2 hx rfl)
      simp only [hdef _ d1]
      cases he : Spec.resolve (some ⟨x.name, x.node, kd, fs⟩) fs e ⟨v.binds, h⟩ with
      | error er =>
        rw [he] at J
        simp only [bind, Except.bind, he, J]
      | ok p =>
        obtain ⟨v2, r2⟩ := p
        rw [he] at J
        obtain ⟨s2, g2, R2, X2, T2⟩ := J
        simp only [bind, Except.bind, he, g2, pure, Except.pure]
        obtain ⟨s, s', t, e1, e2, gr⟩ := X2.ex
        simp only at e1
        obtain ⟨sc', a1, a2, a3⟩ := activate_on kd [x] s2 v2 fs R2 (by
          intro s3 t3 h3 d hd
          rw [e2] at h3
          injection h3 with h3 _
          subst h3
          exact ⟨false, gr.find _ _ (d5 s t e1 d hd)⟩)
        refine ⟨_, rfl, ?_, ?_, ?_⟩
        · rw [a1]; exact a2
        · rw [a1]
          rw [e1] at f2
          injection f2 with f2 f3
          subst f2 f3
          obtain ⟨s4, k1, k2, k3, k4⟩ := a3 _ _ e2
          refine ⟨q, s4, t, f1, k1, ?_, ?_, ?_⟩
          · rw [k2, gr.fn, gq.fn]
          · rw [k3, gr.defer, gq.defer]
          · intro y w hy
            rw [k4 y]
            · exact gr.find _ _ (gq.find _ _ hy)
            · intro d hd he
              have := d4 d hd
              rw [f1] at this
              have := findLocal_top this
              rw [he, hy] at this
              cases this
        · rw [a1]
          exact ⟨T2.uses, T2.closures, T2.indep⟩
  | fn f ps body defs ihb ihd =>
    intro a b fs st v R k
    have F := fn_params R k f ps
    simp only [Spec.resolve, visit]
    cases hf : Spec.fresh ps [] with
    | error er =>
      rw [hf] at F
      simp only [bind, Except.bind, F]
    | ok h =>
      rw [hf] at F
      obtain ⟨P, p1, p2⟩ := F
      simp only [p1]
      rw [setSelf_true P st.scopes _ a rfl]
      have B := ihb none none (f :: fs)
        (push none false { st with scopes := P :: selfScopes a st.scopes }) _
        (push_rel p2 false) .none
      simp only [Bool.false_eq_true, if_false] at B
      cases hb : Spec.resolve none (f :: fs) body
          ⟨Spec.bindAll ⟨false, false⟩ (f :: fs) ps (b.toList ++ v.binds), []⟩ with
      | error er =>
        rw [hb] at B
        simp only [bind, Except.bind, hb, B]
      | ok p =>
        obtain ⟨v1, r1⟩ := p
        rw [hb] at B
        obtain ⟨s1, h1, R1, X1, T1⟩ := B
        have htl : s1.scopes.tail = P :: selfScopes a st.scopes := X1.tail
        simp only [bind, Except.bind, hb, h1]
        rw [setSelf_false P st.scopes (pop s1) k htl]
        have D := ihd none none fs (pop { pop s1 with scopes := P :: st.scopes }) v R .none
        cases hd : Spec.resolve none fs defs v with
        | error er =>
          rw [hd] at D
          simp only [hd, D]
        | ok p =>
          obtain ⟨v2, r2⟩ := p
          rw [hd] at D
          obtain ⟨s2, h2, R2, X2, T2⟩ := D
          simp only [hd, h2, pure, Except.pure]
          refine ⟨s2, rfl, R2, X2, ?_⟩
          exact Tr.append (b := s1) ⟨T1.uses, T1.closures, T1.indep⟩ ⟨T2.uses, T2.closures, T2.indep⟩
  | cls ext ms ihx ihy =>
    intro a b fs st v R k
    have X := ihx none none fs st v R .none
    cases hx : Spec.resolve none fs ext v with
    | error er =>
      rw [hx] at X
      simp only [Spec.resolve, hx, visit, X, bind, Except.bind]
    | ok p =>
      obtain ⟨v1, r1⟩ := p
      rw [hx] at X
      obtain ⟨s1, h1, R1, X1, T1⟩ := X
      have Y := ihy _ _ fs s1 v1 R1 ((k.ext X1).method ms)
      cases hy : Spec.resolve (if Spec.isMethod ms then b else none) fs ms v1 with
      | error er =>
        rw [hy] at Y
        simp only [Spec.resolve, hx, hy, visit, h1, Y, bind, Except.bind]
      | ok p =>
        obtain ⟨v2, r2⟩ := p
        rw [hy] at Y
        obtain ⟨s2, h2, R2, X2, T2⟩ := Y
        simp only [Spec.resolve, hx, hy, visit, h1, h2, bind, Except.bind, pure, Except.pure]
        exact ⟨s2, rfl, R2, X1.trans X2, T1.append T2⟩
  | mem x y ihx ihy =>
    intro a b fs st v R k
    have X := ihx _ _ fs st v R (k.method x)
    cases hx : Spec.resolve (if Spec.isMethod x then b else none) fs x v with
    | error er =>
      rw [hx] at X
      simp only [Spec.resolve, hx, visit, X, bind, Except.bind]
    | ok p =>
      obtain ⟨v1, r1⟩ := p
      rw [hx] at X
      obtain ⟨s1, h1, R1, X1, T1⟩ := X
      have Y := ihy _ _ fs s1 v1 R1 ((k.ext X1).method y)
      cases hy : Spec.resolve (if Spec.isMethod y then b else none) fs y v1 with
      | error er =>
        rw [hy] at Y
        simp only [Spec.resolve, hx, hy, visit, h1, Y, bind, Except.bind]
      | ok p =>
        obtain ⟨v2, r2⟩ := p
        rw [hy] at Y
        obtain ⟨s2, h2, R2, X2, T2⟩ := Y
        simp only [Spec.resolve, hx, hy, visit, h1, h2, bind, Except.bind, pure, Except.pure]
        exact ⟨s2, rfl, R2, X1.trans X2, T1.append T2⟩
  | scope d e ih =>
    intro a b fs st v R k
    have X := ih none none fs (push none d st) _ (push_rel R d) .none
    cases hx : Spec.resolve none fs e ⟨v.binds, if d then v.here else []⟩ with
    | error er =>
      rw [hx] at X
      simp only [Spec.resolve, hx, visit, X, bind, Except.bind]
    | ok p =>
      obtain ⟨v1, r1⟩ := p
      rw [hx] at X
      obtain ⟨s1, h1, R1, X1, T1⟩ := X
      have htl : s1.scopes.tail = st.scopes := X1.tail
      simp only [Spec.resolve, hx, visit, h1, bind, Except.bind, pure, Except.pure]
      refine ⟨_, rfl, ?_, ?_, ?_⟩
      · simp only [pop, htl]; exact R
      · simp only [pop, htl]; exact Ext.refl R.root
      · exact ⟨T1.uses, T1.closures, T1.indep⟩
  | «catch» c x h ih =>
    intro a b fs st v R k
    have D := defineAll_off ⟨c, false⟩ [x] st v fs R
    simp only [Spec.resolve, visit]
    have hdef : ∀ r, defineAll ⟨c, false⟩ false [x] st = r → define ⟨c, false⟩ false x st = r := by
      intro r hr
      simp only [defineAll] at hr
      rw [← hr]
      cases define ⟨c, false⟩ false x st <;> rfl
    cases hf : Spec.fresh [x] v.here with
    | error er =>
      rw [hf] at D
      simp only [bind, Except.bind, hdef _ D]
    | ok hr =>
      rw [hf] at D
      obtain ⟨sc, d1, d2, d3, d4, d5⟩ := D
      obtain ⟨q, q', t', f1, f2, gq⟩ := d3.ex
      subst f2
      have hx := d5 _ _ rfl x List.mem_cons_self
      have S := set_on d2 x.name _ hx
      simp only [hdef _ d1]
      have J := ih none none fs
        (push none false (setTop true x.name { st with scopes := q' :: t' })) _
        (push_rel S false) .none
      simp only [Bool.false_eq_true, if_false] at J
      cases he : Spec.resolve none fs h ⟨⟨x.name, x.node, ⟨c, false⟩, fs⟩ :: v.binds, []⟩ with
      | error er =>
        rw [he] at J
        simp only [bind, Except.bind, he, J]
      | ok p =>
        obtain ⟨v2, r2⟩ := p
        rw [he] at J
        obtain ⟨s2, g2, R2, X2, T2⟩ := J
        have htl : s2.scopes.tail = setAt true x.name (q' :: t') := X2.tail
        simp only [bind, Except.bind, he, g2, pure, Except.pure]
        have hsc : (setTop false x.name (pop s2)).scopes = q' :: t' := by
          simp [setTop, pop, htl, setAt, set_set x.name q'.vars _ hx rfl]
        refine ⟨_, rfl, ?_, ?_, ?_⟩
        · rw [hsc]; exact d2
        · rw [hsc]; exact d3
        · exact ⟨T2.uses, T2.closures, T2.indep⟩

/- The global scope -/

theorem find_known (gs : List (Decl × Bool)) (x : Nat) :
    (find (known gs) x).map (fun v => (⟨v.name, v.node, v.kind, []⟩ : Bind)) =
      Spec.look (Spec.globals gs) x ∧
    (∀ v, find (known gs) x = some v → v.act = true) ∧
    ((find (known gs) x).isSome = true ↔ x ∈ gs.map (fun g => g.1.name)) := by
  induction gs with
  | nil => simp [known, find, Spec.look, Spec.globals]
  | cons g r ih =>
    obtain ⟨d, c⟩ := g
    obtain ⟨h1, h2, h3⟩ := ih
    have hg : Spec.globals ((d, c) :: r) =
      ⟨d.name, d.node, ⟨c, true⟩, []⟩ :: Spec.globals r := rfl
    simp only [known, find, hg, look_cons, List.map_cons, List.mem_cons]
    by_cases hx : d.name = x
    · simp [hx]
    · have hx' : ¬ x = d.name := fun h => hx h.symm
      simp only [if_neg hx, hx', false_or]
      exact ⟨h1, h2, h3⟩

theorem init_rel (gs : List (Decl × Bool)) :
    Rel [⟨known gs, none, false⟩] ⟨Spec.globals gs, gs.map (fun g => g.1.name)⟩ [] := by
  refine ⟨?_, ?_, rfl, rfl⟩
  · intro x
    obtain ⟨h1, h2, _⟩ := find_known gs x
    rw [← h1]
    simp only [lookOuter, seen]
    cases h : find (known gs) x with
    | none => rfl
    | some v => simp [h2 v h, toBind, fnsOf]
  · intro x
    obtain ⟨_, _, h3⟩ := find_known gs x
    rw [← h3]
    simp [findLocal]

end Verif.Names
