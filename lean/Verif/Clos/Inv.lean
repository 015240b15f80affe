/-
  What the optimizer knows about functions when it decides how to load them.

  The counters `num_binds` and `num_self_refs` are reset and recounted many
  times, and the decisions are taken in the middle of it.  The invariant `Inv`
  holds at all times.
-/
import Verif.Clos.Pass

namespace Verif.Clos

/-- A use of a variable: open functions around it, node, levels, variable. -/
structure Use where
  st : List Nat
  r : Nat
  i : Nat
  v : Nat
  deriving DecidableEq, Repr

/-- An assignment: open functions around it, levels, variable. -/
structure Asg where
  st : List Nat
  i : Nat
  v : Nat
  deriving DecidableEq, Repr

/-- All uses of variables in an expression which is inside of functions `st`. -/
def refsOf : List Nat → E → List Use
  | _, .num _ => []
  | st, .ref r i v => [⟨st, r, i, v⟩]
  | st, .set _ _ e => refsOf st e
  | st, .add a b => refsOf st a ++ refsOf st b
  | st, .seq a b => refsOf st a ++ refsOf st b
  | st, .ite c a b => refsOf st c ++ (refsOf st a ++ refsOf st b)
  | st, .whl c b => refsOf st c ++ refsOf st b
  | st, .call f a => refsOf st f ++ refsOf st a
  | st, .fn F _ b => refsOf (F :: st) b
  | st, .letv _ e rest => refsOf st e ++ refsOf st rest
  | st, .letf _ F _ b rest => refsOf (F :: st) b ++ refsOf st rest

/-- All assignments. -/
def setsOf : List Nat → E → List Asg
  | _, .num _ => []
  | _, .ref _ _ _ => []
  | st, .set i v e => setsOf st e ++ [⟨st, i, v⟩]
  | st, .add a b => setsOf st a ++ setsOf st b
  | st, .seq a b => setsOf st a ++ setsOf st b
  | st, .ite c a b => setsOf st c ++ (setsOf st a ++ setsOf st b)
  | st, .whl c b => setsOf st c ++ setsOf st b
  | st, .call f a => setsOf st f ++ setsOf st a
  | st, .fn F _ b => setsOf (F :: st) b
  | st, .letv _ e rest => setsOf st e ++ setsOf st rest
  | st, .letf _ F _ b rest => setsOf (F :: st) b ++ setsOf st rest

/-- All declared variables, with parameters. -/
def varsOf : E → List Nat
  | .num _ => []
  | .ref _ _ _ => []
  | .set _ _ e => varsOf e
  | .add a b => varsOf a ++ varsOf b
  | .seq a b => varsOf a ++ varsOf b
  | .ite c a b => varsOf c ++ (varsOf a ++ varsOf b)
  | .whl c b => varsOf c ++ varsOf b
  | .call f a => varsOf f ++ varsOf a
  | .fn _ p b => p :: varsOf b
  | .letv v e rest => v :: (varsOf e ++ varsOf rest)
  | .letf v _ p b rest => v :: (p :: varsOf b ++ varsOf rest)

section
variable (R : List Use) (S : List Asg) (D : Nat → Option Nat)

/-- Conditions on a function: it is not inside of itself, what is inside of it is
    in its body, its parameter is assigned only in it and declared once. -/
def WFfn (st : List Nat) (F p : Nat) (b : E) : Prop :=
  F ∉ st ∧ (∀ x ∈ R, F ∈ x.st → x ∈ refsOf (F :: st) b) ∧
  (∀ x ∈ S, F ∈ x.st → x ∈ setsOf (F :: st) b) ∧
  (∀ x ∈ S, x.v = p → x ∈ setsOf (F :: st) b) ∧ p ∉ varsOf b

/-- Conditions on a program, where `R`, `S` are its uses of variables and
    assignments and `D` are the functions to which variables are declared. -/
def WF : List Nat → E → Prop
  | _, .num _ => True
  | st, .ref r i v => ⟨st, r, i, v⟩ ∈ R
  | st, .set i v e => ⟨st, i, v⟩ ∈ S ∧ WF st e
  | st, .add a b => WF st a ∧ WF st b
  | st, .seq a b => WF st a ∧ WF st b
  | st, .ite c a b => WF st c ∧ WF st a ∧ WF st b
  | st, .whl c b => WF st c ∧ WF st b
  | st, .call f a => WF st f ∧ WF st a
  | st, .fn F p b => WFfn R S st F p b ∧ WF (F :: st) b
  | st, .letv v e rest =>
    D v = e.fun? ∧ (∀ x ∈ S, x.v = v → x ∈ setsOf st rest) ∧ v ∉ varsOf rest ∧
    WF st e ∧ WF st rest
  | st, .letf v F p b rest =>
    D v = some F ∧ (∀ x ∈ S, x.v ≠ v) ∧ WFfn R S st F p b ∧ WF (F :: st) b ∧ WF st rest

/-- Conditions on the program as a whole: nodes are unique, and a use of the
    variable which holds a function leaves that function, if it is in it. -/
structure Glob : Prop where
  node : ∀ x ∈ R, ∀ y ∈ R, x.r = y.r → x = y
  leave : ∀ x ∈ R, ∀ F, D x.v = some F → F ∈ x.st → F ∈ x.st.take x.i

/-- The use was replaced by LOAD.CONST, or it is a use of the variable of a
    function inside of that function. -/
def OKref (s : St) (x : Use) : Prop :=
  s.flag x.r = true ∨ (s.isConst x.v = true ∧ ∃ F, s.value x.v = some F ∧ F ∈ x.st)

/-- All uses of variables of outer functions in `F` are like that. -/
def Shareable (s : St) (F : Nat) : Prop :=
  (∀ x ∈ R, F ∈ x.st.take x.i → OKref s x) ∧ (∀ x ∈ S, F ∉ x.st.take x.i)

structure Inv (s : St) : Prop where
  a : ∀ x ∈ R, s.flag x.r = true → x.i ≠ 0 ∧ s.isConst x.v = true ∧
    ∃ F, s.value x.v = some F ∧ F ∉ x.st ∧ Shareable R S s F ∧
      (s.opn F = false → s.binds F ≤ s.selfs F)
  b : ∀ F, s.opn F = false → s.defs F = 0 → s.binds F ≤ s.selfs F → Shareable R S s F
  c : ∀ x ∈ R, ∀ F ∈ x.st, D x.v = some F → s.prev F ≠ 0
  d : ∀ v F, s.value v = some F → D v = some F ∧ s.defs F = 0
  e : ∀ v, s.isConst v = true → ∀ x ∈ S, x.v ≠ v

structure Mono (s s' : St) : Prop where
  flag : ∀ r, s.flag r = true → s'.flag r = true
  const : ∀ v, s.isConst v = true → s'.isConst v = true
  value : ∀ v F, s.value v = some F → s'.value v = some F
  defs : ∀ F, s.defs F = 0 → s'.defs F = 0

/-- What visiting uses `RS`, assignments `SS` and declarations of `VS` did. -/
structure Spec (st : List Nat) (RS : List Use) (SS : List Asg) (VS : List Nat) (s s' : St) : Prop where
  inv : Inv R S D s'
  opn : s'.opn = s.opn
  mono : Mono s s'
  new : ∀ r, s'.flag r = true → s.flag r = true ∨ ∃ x ∈ RS, x.r = r
  d0 : ∀ F ∈ st, s.binds F ≤ s'.binds F
  d1 : ∀ F ∈ st, s.binds F + s'.selfs F ≤ s'.binds F + s.selfs F
  d2 : ∀ F ∈ st, s'.binds F + s.selfs F = s.binds F + s'.selfs F →
    (∀ x ∈ RS, F ∈ x.st.take x.i → OKref s' x) ∧ (∀ x ∈ SS, F ∉ x.st.take x.i)
  d3 : ∀ F ∈ st, (∀ x ∈ RS, F ∈ x.st.take x.i → OKref s x) → (∀ x ∈ SS, F ∉ x.st.take x.i) →
    s'.binds F + s.selfs F = s.binds F + s'.selfs F
  d4 : ∀ F ∈ st, (∃ x ∈ RS, D x.v = some F ∧ F ∈ x.st) → s.binds F < s'.binds F
  asg : ∀ v, v ∉ VS → s.assigns v ≤ s'.assigns v ∧ ((∃ x ∈ SS, x.v = v) → 0 < s'.assigns v)

variable {R S D}

theorem Mono.refl (s : St) : Mono s s := ⟨fun _ h => h, fun _ h => h, fun _ _ h => h, fun _ h => h⟩

theorem Mono.trans {a b c : St} (h : Mono a b) (k : Mono b c) : Mono a c :=
  ⟨fun r x => k.flag r (h.flag r x), fun r x => k.const r (h.const r x),
   fun v F x => k.value v F (h.value v F x), fun F x => k.defs F (h.defs F x)⟩

theorem OKref.mono {s s' : St} {x : Use} (h : Mono s s') (k : OKref s x) : OKref s' x := by
  rcases k with h1 | ⟨h1, F, h2, h3⟩
  · exact .inl (h.flag _ h1)
  · exact .inr ⟨h.const _ h1, F, h.value _ _ h2, h3⟩

theorem Shareable.mono {s s' : St} {F : Nat} (h : Mono s s') (k : Shareable R S s F) :
    Shareable R S s' F := ⟨fun x hx hf => (k.1 x hx hf).mono h, k.2⟩

/-- One thing after another. -/
theorem Spec.comp {st RS RS' SS SS' VS VS' s s1 s2} (h : Spec R S D st RS SS VS s s1)
    (k : Spec R S D st RS' SS' VS' s1 s2) :
    Spec R S D st (RS ++ RS') (SS ++ SS') (VS ++ VS') s s2 where
  inv := k.inv
  opn := k.opn.trans h.opn
  mono := h.mono.trans k.mono
  new := by
    intro r hr
    rcases k.new r hr with h1 | ⟨x, hx, h1⟩
    · rcases h.new r h1 with h2 | ⟨x, hx, h2⟩
      · exact .inl h2
      · exact .inr ⟨x, List.mem_append_left _ hx, h2⟩
    · exact .inr ⟨x, List.mem_append_right _ hx, h1⟩
  d0 := fun F hF => Nat.le_trans (h.d0 F hF) (k.d0 F hF)
  d1 := by
    intro F hF
    have := h.d1 F hF; have := k.d1 F hF
    omega
  d2 := by
    intro F hF he
    have h1 := h.d1 F hF; have h2 := k.d1 F hF
    obtain ⟨a1, a2⟩ := h.d2 F hF (by omega)
    obtain ⟨b1, b2⟩ := k.d2 F hF (by omega)
    constructor
    · intro x hx hm
      rcases List.mem_append.1 hx with hx | hx
      · exact (a1 x hx hm).mono k.mono
      · exact b1 x hx hm
    · intro x hx
      rcases List.mem_append.1 hx with hx | hx
      · exact a2 x hx
      · exact b2 x hx
  d3 := by
    intro F hF h1 h2
    have a := h.d3 F hF (fun x hx => h1 x (List.mem_append_left _ hx))
      (fun x hx => h2 x (List.mem_append_left _ hx))
    have b := k.d3 F hF (fun x hx hm => (h1 x (List.mem_append_right _ hx) hm).mono h.mono)
      (fun x hx => h2 x (List.mem_append_right _ hx))
    omega
  d4 := by
    rintro F hF ⟨x, hx, h1⟩
    have h3 := h.d0 F hF; have h4 := k.d0 F hF
    rcases List.mem_append.1 hx with hx | hx
    · have := h.d4 F hF ⟨x, hx, h1⟩; omega
    · have := k.d4 F hF ⟨x, hx, h1⟩; omega
  asg := by
    intro v hv
    have a := h.asg v (fun hm => hv (List.mem_append_left _ hm))
    have b := k.asg v (fun hm => hv (List.mem_append_right _ hm))
    refine ⟨Nat.le_trans a.1 b.1, ?_⟩
    rintro ⟨x, hx, h1⟩
    rcases List.mem_append.1 hx with hx | hx
    · exact Nat.lt_of_lt_of_le (a.2 ⟨x, hx, h1⟩) b.1
    · exact b.2 ⟨x, hx, h1⟩

/-- The same once more. -/
theorem Spec.again {st RS SS VS s s1 s2} (h : Spec R S D st RS SS VS s s1)
    (k : Spec R S D st RS SS VS s1 s2) : Spec R S D st RS SS VS s s2 := by
  have c := h.comp k
  refine ⟨c.inv, c.opn, c.mono, ?_, c.d0, c.d1, ?_, ?_, ?_, ?_⟩
  · intro r hr
    rcases c.new r hr with h1 | ⟨x, hx, h1⟩
    · exact .inl h1
    · exact .inr ⟨x, by simpa using hx, h1⟩
  · intro F hF he
    obtain ⟨a, b⟩ := c.d2 F hF he
    exact ⟨fun x hx => a x (List.mem_append_left _ hx), fun x hx => b x (List.mem_append_left _ hx)⟩
  · intro F hF h1 h2
    exact c.d3 F hF (fun x hx => h1 x (by simpa using hx)) (fun x hx => h2 x (by simpa using hx))
  · rintro F hF ⟨x, hx, h1⟩
    exact c.d4 F hF ⟨x, List.mem_append_left _ hx, h1⟩
  · intro v hv
    have := c.asg v (by simpa using hv)
    refine ⟨this.1, ?_⟩
    rintro ⟨x, hx, h1⟩
    exact this.2 ⟨x, List.mem_append_left _ hx, h1⟩

/-- Only what the variables are, not their order, matters. -/
theorem Spec.vars {st RS SS VS VS' s s'} (h : Spec R S D st RS SS VS s s')
    (k : ∀ v ∈ VS, v ∈ VS') : Spec R S D st RS SS VS' s s' :=
  ⟨h.inv, h.opn, h.mono, h.new, h.d0, h.d1, h.d2, h.d3, h.d4,
   fun v hv => h.asg v (fun hm => hv (k v hm))⟩

/-- A step which does not touch the counters. -/
theorem Spec.quiet {st VS s s'} (hi : Inv R S D s') (ho : s'.opn = s.opn) (hm : Mono s s')
    (hf : s'.flag = s.flag) (hb : s'.binds = s.binds) (hs : s'.selfs = s.selfs)
    (ha : ∀ v, v ∉ VS → s'.assigns v = s.assigns v) : Spec R S D st [] [] VS s s' where
  inv := hi
  opn := ho
  mono := hm
  new := fun r h => .inl (by rw [← hf]; exact h)
  d0 := by intro F _; rw [hb]; exact Nat.le_refl _
  d1 := by intro F _; rw [hb, hs]; exact Nat.le_refl _
  d2 := by
    intro F _ _
    refine ⟨?_, ?_⟩ <;> (intro x hx; cases hx)
  d3 := by intro F _ _ _; rw [hb, hs]
  d4 := by rintro F _ ⟨x, hx, -⟩; cases hx
  asg := by
    intro v hv
    refine ⟨Nat.le_of_eq (ha v hv).symm, ?_⟩
    rintro ⟨x, hx, -⟩; cases hx

theorem upd_same {α : Type} (f : Nat → α) (k : Nat) (x : α) : upd f k x k = x := by simp [upd]

theorem upd_other {α : Type} (f : Nat → α) {k j : Nat} (x : α) (h : j ≠ k) : upd f k x j = f j := by
  simp [upd, h]

/-- What mark_binds does. -/
theorem markLoop_spec (self : Bool) : ∀ (Fs : List Nat) (s : St),
    markLoop self Fs s =
      { s with binds := fun F => s.binds F + Fs.count F,
               selfs := fun F => s.selfs F + (if self then Fs.count F else 0) } := by
  intro Fs
  induction Fs with
  | nil => intro s; cases self <;> simp [markLoop]
  | cons G Fs ih =>
    intro s
    rw [markLoop, ih]
    have hc : ∀ F, (G :: Fs).count F = Fs.count F + (if F = G then 1 else 0) := by
      intro F
      rw [List.count_cons]
      by_cases h : F = G
      · subst h; simp
      · have : (G == F) = false := by simpa using fun hh => h hh.symm
        simp [this, h]
    congr 1
    · funext F
      simp only
      rw [hc]
      by_cases h : F = G
      · subst h; simp [upd]; omega
      · simp [upd, h]
    · funext F
      simp only
      rw [hc]
      cases self
      · simp
      · by_cases h : F = G
        · subst h; simp [upd]; omega
        · simp [upd, h]

/-- Counters may change as long as those of closed functions do not. -/
theorem Inv.count {s : St} (h : Inv R S D s) {bs ss as : Nat → Nat}
    (hb : ∀ F, s.opn F = false → bs F = s.binds F) (hs : ∀ F, s.opn F = false → ss F = s.selfs F) :
    Inv R S D { s with binds := bs, selfs := ss, assigns := as } where
  a := by
    intro x hx hf
    obtain ⟨h1, h2, F, h3, h4, h5, h6⟩ := h.a x hx hf
    refine ⟨h1, h2, F, h3, h4, h5, ?_⟩
    intro ho
    have := h6 ho
    show bs F ≤ ss F
    rw [hb F ho, hs F ho]; exact this
  b := by
    intro F ho hd hle
    refine h.b F ho hd ?_
    have : bs F ≤ ss F := hle
    rw [hb F ho, hs F ho] at this; exact this
  c := h.c
  d := h.d
  e := h.e

/-- mark_binds for a use or an assignment. -/
theorem mark_spec {st : List Nat} {i v : Nat} {s : St} (ho : ∀ F, s.opn F = true ↔ F ∈ st)
    (hi : Inv R S D s) (RS : List Use) (SS : List Asg) (as : Nat → Nat)
    (hRS : ∀ x ∈ RS, x.st = st ∧ x.i = i ∧ x.v = v) (hSS : ∀ x ∈ SS, x.st = st ∧ x.i = i)
    (hset : SS ≠ [] → checkSelf s v = false)
    (hok : RS ≠ [] ∨ SS ≠ [])
    (hun : ∀ x ∈ RS, OKref s x → checkSelf s v = true)
    (hl : ∀ x ∈ RS, ∀ F, D x.v = some F → F ∈ x.st → F ∈ x.st.take x.i)
    (ha : ∀ w, s.assigns w ≤ as w) (ha2 : ∀ x ∈ SS, 0 < as x.v) :
    Spec R S D st RS SS [] s (markBinds st i v { s with assigns := as }) := by
  have e : markBinds st i v { s with assigns := as } =
      { s with binds := fun F => s.binds F + (st.take i).count F,
               selfs := fun F => s.selfs F + (if checkSelf s v then (st.take i).count F else 0),
               assigns := as } := by
    unfold markBinds; rw [markLoop_spec]; rfl
  rw [e]
  have hz : ∀ F, s.opn F = false → (st.take i).count F = 0 := by
    intro F hF
    rw [List.count_eq_zero]
    intro hm
    have := (ho F).2 (List.mem_of_mem_take hm)
    rw [this] at hF; cases hF
  refine ⟨hi.count (fun F hF => ?_) (fun F hF => ?_), rfl, ⟨fun _ h => h, fun _ h => h, fun _ _ h => h, fun _ h => h⟩,
    fun r h => .inl h, ?_, ?_, ?_, ?_, ?_, ?_⟩
  · simp [hz F hF]
  · simp [hz F hF]
  · intro F _; exact Nat.le_add_right _ _
  · intro F _
    simp only
    split <;> omega
  · intro F hF heq
    simp only at heq
    cases hc : checkSelf s v with
    | true =>
      constructor
      · intro x hx hm
        right
        obtain ⟨h1, h2, h3⟩ := hRS x hx
        rw [h3]
        unfold checkSelf at hc
        rw [Bool.and_eq_true] at hc
        refine ⟨hc.1, ?_⟩
        have hc2 := hc.2
        cases hv : s.value v with
        | none => rw [hv] at hc2; cases hc2
        | some G =>
          rw [hv] at hc2
          exact ⟨G, rfl, by rw [h1]; exact (ho G).1 hc2⟩
      · intro x hx
        have := hset (List.ne_nil_of_mem hx)
        rw [hc] at this; cases this
    | false =>
      rw [hc] at heq
      have : (st.take i).count F = 0 := by simp at heq; omega
      rw [List.count_eq_zero] at this
      constructor
      · intro x hx hm
        obtain ⟨h1, h2, h3⟩ := hRS x hx
        rw [h1, h2] at hm
        exact absurd hm this
      · intro x hx
        obtain ⟨h1, h2⟩ := hSS x hx
        rw [h1, h2]; exact this
  · intro F hF h1 h2
    simp only
    cases hc : checkSelf s v with
    | true => simp; omega
    | false =>
      have : (st.take i).count F = 0 := by
        rw [List.count_eq_zero]
        intro hm
        rcases hok with hne | hne
        · obtain ⟨x, hx⟩ := List.exists_mem_of_ne_nil _ hne
          obtain ⟨q1, q2, q3⟩ := hRS x hx
          have := hun x hx (h1 x hx (by rw [q1, q2]; exact hm))
          rw [hc] at this; cases this
        · obtain ⟨x, hx⟩ := List.exists_mem_of_ne_nil _ hne
          obtain ⟨q1, q2⟩ := hSS x hx
          exact h2 x hx (by rw [q1, q2]; exact hm)
      simp [this]
  · rintro F hF ⟨x, hx, h1, h2⟩
    obtain ⟨q1, q2, q3⟩ := hRS x hx
    have hm := hl x hx F h1 h2
    rw [q1, q2] at hm
    have := List.count_pos_iff.2 hm
    simp only
    omega
  · intro w _
    refine ⟨ha w, ?_⟩
    rintro ⟨x, hx, h1⟩
    rw [← h1]; exact ha2 x hx

theorem isConstFun_eq {s : St} {F : Nat} : isConstFun s F = true ↔
    s.defs F = 0 ∧ s.binds F ≤ s.selfs F ∧ (s.opn F = false ∨ s.prev F = 0) := by
  unfold isConstFun
  by_cases h1 : s.defs F = 0 <;> by_cases h2 : s.binds F > s.selfs F <;> cases h3 : s.opn F <;>
    by_cases h4 : s.prev F = 0 <;> simp [h1, h2, h4] <;> omega

theorem Inv.withOpts {s : St} (h : Inv R S D s) (k : Nat) : Inv R S D { s with opts := k } :=
  ⟨h.a, h.b, h.c, h.d, h.e⟩

theorem setFlag_spec {st : List Nat} {r i v F : Nat} {s : St} (hg : Glob R D)
    (ho : ∀ F, s.opn F = true ↔ F ∈ st)
    (hi : Inv R S D s) (hx : (⟨st, r, i, v⟩ : Use) ∈ R) (h0 : i ≠ 0) (hc : s.isConst v = true)
    (hv : s.value v = some F) (hf : isConstFun s F = true) :
    Spec R S D st [⟨st, r, i, v⟩] [] [] s (setFlag r s) := by
  obtain ⟨f1, f2, f3⟩ := isConstFun_eq.1 hf
  obtain ⟨hD, -⟩ := hi.d v F hv
  have hF : F ∉ st := by
    intro hm
    rcases f3 with f3 | f3
    · rw [(ho F).2 hm] at f3; cases f3
    · exact hi.c _ hx F hm hD f3
  have hclosed : s.opn F = false := by
    cases h : s.opn F with
    | false => rfl
    | true => exact absurd ((ho F).1 h) hF
  have hsh := hi.b F hclosed f1 f2
  -- the new state
  have main : ∀ s' : St, s' = { s with flag := upd s.flag r true, opts := s'.opts } →
      Spec R S D st [⟨st, r, i, v⟩] [] [] s s' := by
    intro s' e
    have hfl : s'.flag = upd s.flag r true := by rw [e]
    have hm : Mono s s' := by
      rw [e]
      refine ⟨?_, fun _ h => h, fun _ _ h => h, fun _ h => h⟩
      intro r' h
      by_cases hr : r' = r
      · subst hr; exact upd_same _ _ _
      · show upd s.flag r true r' = true
        rw [upd_other _ _ hr]; exact h
    have hr : s'.flag r = true := by rw [hfl]; exact upd_same _ _ _
    refine ⟨⟨?_, ?_, ?_, ?_, ?_⟩, by rw [e], hm, ?_, ?_, ?_, ?_, ?_, ?_, ?_⟩
    · intro y hy hfy
      by_cases hyr : y.r = r
      · have := hg.node y hy _ hx hyr
        subst this
        refine ⟨h0, by rw [e]; exact hc, F, by rw [e]; exact hv, hF, hsh.mono hm, ?_⟩
        intro _; rw [e]; exact f2
      · rw [hfl, upd_other _ _ hyr] at hfy
        obtain ⟨a1, a2, G, a3, a4, a5, a6⟩ := hi.a y hy hfy
        refine ⟨a1, by rw [e]; exact a2, G, by rw [e]; exact a3, a4, a5.mono hm, by rw [e]; exact a6⟩
    · intro G h1 h2 h3
      rw [e] at h1 h2 h3
      exact (hi.b G h1 h2 h3).mono hm
    · intro y hy G hG hD'
      rw [e]; exact hi.c y hy G hG hD'
    · intro w G hw
      rw [e] at hw ⊢
      exact hi.d w G hw
    · intro w hw
      rw [e] at hw
      exact hi.e w hw
    · intro r' h
      by_cases hrr : r' = r
      · exact .inr ⟨_, List.mem_singleton.2 rfl, hrr.symm⟩
      · rw [hfl, upd_other _ _ hrr] at h; exact .inl h
    · intro G _; rw [e]; exact Nat.le_refl _
    · intro G _; rw [e]; exact Nat.le_refl _
    · intro G _ _
      refine ⟨?_, fun x hx => by cases hx⟩
      intro y hy _
      rw [List.mem_singleton] at hy
      subst hy
      exact .inl hr
    · intro G _ _ _; rw [e]
    · rintro G hG ⟨y, hy, h1, h2⟩
      rw [List.mem_singleton] at hy
      subst hy
      rw [hD] at h1
      cases h1
      exact absurd h2 hF
    · intro w _
      rw [e]
      refine ⟨Nat.le_refl _, ?_⟩
      rintro ⟨x, hx, -⟩; cases hx
  unfold setFlag
  split
  · rename_i hfr
    refine main s ?_
    have : upd s.flag r true = s.flag := by
      funext r'
      by_cases hrr : r' = r
      · subst hrr; rw [upd_same, hfr]
      · rw [upd_other _ _ hrr]
    rw [this]
  · exact main _ rfl

/-- Uses of variables. -/
theorem identifier_spec {st : List Nat} {r i v : Nat} {s : St} (hg : Glob R D)
    (ho : ∀ F, s.opn F = true ↔ F ∈ st) (hi : Inv R S D s) (hx : (⟨st, r, i, v⟩ : Use) ∈ R) :
    Spec R S D st [⟨st, r, i, v⟩] [] [] s (identifier st r i v s) := by
  by_cases h0 : i = 0
  · subst h0
    have e : identifier st r 0 v s = s := by simp [identifier]
    rw [e]
    refine ⟨hi, rfl, Mono.refl s, fun r h => .inl h, fun _ _ => Nat.le_refl _, fun _ _ => Nat.le_refl _, ?_, fun _ _ _ _ => rfl,
      ?_, fun _ _ => ⟨Nat.le_refl _, fun ⟨x, hx, _⟩ => by cases hx⟩⟩
    · intro F _ _
      refine ⟨?_, fun x hx => by cases hx⟩
      intro x hx hm
      rw [List.mem_singleton] at hx
      subst hx
      simp at hm
    · rintro F _ ⟨x, hx, h1, h2⟩
      rw [List.mem_singleton] at hx
      subst hx
      have := hg.leave _ ‹_› F h1 h2
      simp at this
  · have mark : isConstFun s ((s.value v).getD 0) = false ∨ s.isConst v = false ∨ s.value v = none →
        Spec R S D st [⟨st, r, i, v⟩] [] [] s (markBinds st i v s) := by
      intro hno
      refine mark_spec (s := s) ho hi _ _ s.assigns ?_ ?_ ?_ (.inl (by simp)) ?_ ?_ (fun _ => Nat.le_refl _) ?_
      · intro x hx; rw [List.mem_singleton] at hx; subst hx; exact ⟨rfl, rfl, rfl⟩
      · intro x hx; cases hx
      · intro h; exact absurd rfl h
      · intro x hx hok
        rw [List.mem_singleton] at hx
        subst hx
        rcases hok with hfl | ⟨h1, F, h2, h3⟩
        · exfalso
          obtain ⟨a1, a2, G, a3, a4, a5, a6⟩ := hi.a _ hx hfl
          simp only at a2 a3 a4
          have hcl : s.opn G = false := by
            cases h : s.opn G with
            | false => rfl
            | true => exact absurd ((ho G).1 h) a4
          have : isConstFun s G = true :=
            isConstFun_eq.2 ⟨(hi.d v G a3).2, a6 hcl, .inl hcl⟩
          rw [a3, a2] at hno
          simp [this] at hno
        · simp only at h1 h2 h3
          unfold checkSelf
          rw [h1, h2]
          simp [(ho F).2 h3]
      · intro x hx' F h1 h2
        rw [List.mem_singleton] at hx'
        subst hx'
        exact hg.leave _ hx F h1 h2
      · intro x hx; cases hx
    unfold identifier
    rw [if_neg h0]
    cases hc : s.isConst v with
    | false => exact mark (.inr (.inl hc))
    | true =>
      cases hv : s.value v with
      | none => exact mark (.inr (.inr hv))
      | some F =>
        simp only
        by_cases hf : isConstFun s F = true
        · rw [if_pos hf]
          exact setFlag_spec hg ho hi hx h0 hc hv hf
        · rw [if_neg hf]
          refine mark (.inl ?_)
          rw [hv]; simpa using hf

/-- Assignments. -/
theorem assign_spec {st : List Nat} {i v : Nat} {s : St}
    (ho : ∀ F, s.opn F = true ↔ F ∈ st) (hi : Inv R S D s) (hx : (⟨st, i, v⟩ : Asg) ∈ S) :
    Spec R S D st [] [⟨st, i, v⟩] [] s (assignVar st i v s) := by
  have hle : ∀ w, s.assigns w ≤ upd s.assigns v (s.assigns v + 1) w := by
    intro w
    by_cases hw : w = v
    · subst hw; rw [upd_same]; omega
    · rw [upd_other _ _ hw]; exact Nat.le_refl _
  unfold assignVar
  simp only
  by_cases h0 : i = 0
  · rw [if_pos h0]
    subst h0
    refine ⟨hi.count (fun _ _ => rfl) (fun _ _ => rfl), rfl,
      ⟨fun _ h => h, fun _ h => h, fun _ _ h => h, fun _ h => h⟩, fun r h => .inl h,
      fun _ _ => Nat.le_refl _, fun _ _ => Nat.le_refl _, ?_, fun _ _ _ _ => rfl, ?_, ?_⟩
    · intro F _ _
      refine ⟨?_, ?_⟩
      · intro x hx; cases hx
      intro x hx
      rw [List.mem_singleton] at hx
      subst hx
      simp
    · rintro F _ ⟨x, hx, -⟩; cases hx
    · intro w _
      refine ⟨hle w, ?_⟩
      rintro ⟨x, hx, h1⟩
      rw [List.mem_singleton] at hx
      subst hx
      simp only at h1
      subst h1
      show 0 < upd s.assigns v (s.assigns v + 1) v
      rw [upd_same]; omega
  · rw [if_neg h0]
    refine mark_spec ho hi [] [⟨st, i, v⟩] _ ?_ ?_ ?_ (.inr (by simp)) ?_ ?_ hle ?_
    · intro x hx; cases hx
    · intro x hx; rw [List.mem_singleton] at hx; subst hx; exact ⟨rfl, rfl⟩
    · intro _
      unfold checkSelf
      cases hc : s.isConst v with
      | false => rfl
      | true => exact absurd rfl (hi.e v hc _ hx)
    · intro x hx; cases hx
    · intro x hx; cases hx
    · intro x hx
      rw [List.mem_singleton] at hx
      subst hx
      simp only
      rw [upd_same]; omega

/-- Clearing the number of assignments of a variable. -/
theorem reset_spec {st : List Nat} {v : Nat} {s : St} (hi : Inv R S D s) :
    Spec R S D st [] [] [v] s (resetVar v s) := by
  refine Spec.quiet (hi.count (fun _ _ => rfl) (fun _ _ => rfl)) rfl
    ⟨fun _ h => h, fun _ h => h, fun _ _ h => h, fun _ h => h⟩ rfl rfl rfl ?_
  intro w hw
  exact upd_other _ _ (by simpa using hw)

/-- A variable becomes a constant. -/
theorem const_inv {v : Nat} {s s' : St} (hi : Inv R S D s) (hS : ∀ x ∈ S, x.v ≠ v)
    (e : s' = { s with isConst := upd s.isConst v true, opts := s'.opts }) :
    Inv R S D s' ∧ Mono s s' := by
  have hm : Mono s s' := by
    rw [e]
    refine ⟨fun _ h => h, ?_, fun _ _ h => h, fun _ h => h⟩
    intro w h
    by_cases hw : w = v
    · subst hw; exact upd_same _ _ _
    · show upd s.isConst v true w = true
      rw [upd_other _ _ hw]; exact h
  refine ⟨⟨?_, ?_, ?_, ?_, ?_⟩, hm⟩
  · intro x hx hf
    have hf' : s.flag x.r = true := by rw [e] at hf; exact hf
    obtain ⟨a1, a2, F, a3, a4, a5, a6⟩ := hi.a x hx hf'
    exact ⟨a1, hm.const _ a2, F, hm.value _ _ a3, a4, a5.mono hm, by rw [e]; exact a6⟩
  · intro F h1 h2 h3
    rw [e] at h1 h2 h3
    exact (hi.b F h1 h2 h3).mono hm
  · intro x hx F hF hD
    rw [e]; exact hi.c x hx F hF hD
  · intro w F hw
    rw [e] at hw ⊢; exact hi.d w F hw
  · intro w hw
    by_cases hwv : w = v
    · subst hwv; exact hS
    · refine hi.e w ?_
      rw [e] at hw
      have : upd s.isConst v true w = true := hw
      rw [upd_other _ _ hwv] at this; exact this

theorem promote_spec {st : List Nat} {v : Nat} {s : St} (hi : Inv R S D s)
    (hS : s.assigns v = 0 → ∀ x ∈ S, x.v ≠ v) :
    Spec R S D st [] [] [] s (promoteVar v s) := by
  unfold promoteVar
  split
  · rename_i h
    obtain ⟨h1, h2⟩ := const_inv (s' := { s with isConst := upd s.isConst v true, opts := s.opts + 1 }) hi (hS h.2) rfl
    exact Spec.quiet h1 rfl h2 rfl rfl rfl (fun _ _ => rfl)
  · exact Spec.quiet hi rfl (Mono.refl s) rfl rfl rfl (fun _ _ => rfl)

/-- A declaration gives the variable its value. -/
theorem value_spec {st : List Nat} {v : Nat} {f : Option Nat} {s : St} (hi : Inv R S D s)
    (hD : D v = f) (hd : ∀ F, f = some F → s.defs F = 0) :
    Spec R S D st [] [] [] s (setValue v f s) := by
  have hm : Mono s (setValue v f s) := by
    refine ⟨fun _ h => h, fun _ h => h, ?_, fun _ h => h⟩
    intro w F h
    by_cases hw : w = v
    · subst hw
      have := (hi.d w F h).1
      show upd s.value w f w = some F
      rw [upd_same, ← hD]; exact this
    · show upd s.value v f w = some F
      rw [upd_other _ _ hw]; exact h
  refine Spec.quiet ⟨?_, ?_, hi.c, ?_, hi.e⟩ rfl hm rfl rfl rfl (fun _ _ => rfl)
  · intro x hx hf
    obtain ⟨a1, a2, F, a3, a4, a5, a6⟩ := hi.a x hx hf
    exact ⟨a1, a2, F, hm.value _ _ a3, a4, a5.mono hm, a6⟩
  · intro F h1 h2 h3
    exact (hi.b F h1 h2 h3).mono hm
  · intro w F hw
    by_cases hwv : w = v
    · subst hwv
      have : upd s.value w f w = some F := hw
      rw [upd_same] at this
      exact ⟨by rw [hD]; exact this, hd F this⟩
    · have : upd s.value v f w = some F := hw
      rw [upd_other _ _ hwv] at this
      exact hi.d w F this

/-- Everything in an expression is inside of the functions around it. -/
theorem refsOf_stack : ∀ (e : E) (st : List Nat) (x : Use), x ∈ refsOf st e → ∀ F ∈ st, F ∈ x.st := by
  intro e
  induction e with
  | num n => intro st x hx; cases hx
  | ref r i v =>
    intro st x hx F hF
    rw [refsOf, List.mem_singleton] at hx
    subst hx; exact hF
  | set i v e ih => intro st x hx; exact ih st x hx
  | add a b iha ihb | seq a b iha ihb | whl a b iha ihb | call a b iha ihb =>
    intro st x hx
    rcases List.mem_append.1 hx with hx | hx
    · exact iha st x hx
    · exact ihb st x hx
  | ite c a b ihc iha ihb =>
    intro st x hx
    rcases List.mem_append.1 hx with hx | hx
    · exact ihc st x hx
    · rcases List.mem_append.1 hx with hx | hx
      · exact iha st x hx
      · exact ihb st x hx
  | fn F p b ih =>
    intro st x hx G hG
    exact ih (F :: st) x hx G (List.mem_cons_of_mem _ hG)
  | letv v e rest ihe ihr =>
    intro st x hx
    rcases List.mem_append.1 hx with hx | hx
    · exact ihe st x hx
    · exact ihr st x hx
  | letf v F p b rest ihb ihr =>
    intro st x hx
    rcases List.mem_append.1 hx with hx | hx
    · intro G hG; exact ihb (F :: st) x hx G (List.mem_cons_of_mem _ hG)
    · exact ihr st x hx

/-- One visit of a function. -/
theorem once_spec {st : List Nat} {F p : Nat} {b : E} {s s1 : St} (hg : Glob R D)
    (hw : WFfn R S st F p b) (hR : ∀ y ∈ refsOf (F :: st) b, y ∈ R)
    (hS : ∀ y ∈ setsOf (F :: st) b, y ∈ S) (ho : ∀ G, s.opn G = true ↔ G ∈ st) (hi : Inv R S D s)
    (hb : Inv R S D (openFun F p s) → (∀ G, (openFun F p s).opn G = true ↔ G ∈ F :: st) →
      Spec R S D (F :: st) (refsOf (F :: st) b) (setsOf (F :: st) b) (varsOf b) (openFun F p s) s1) :
    Spec R S D st (refsOf (F :: st) b) (setsOf (F :: st) b) (p :: varsOf b) s
      (endFun F (closeFun F p s1)) := by
  obtain ⟨w1, w2, w3, w4, w5⟩ := hw
  have hFo : s.opn F = false := by
    cases h : s.opn F with
    | false => rfl
    | true => exact absurd ((ho F).1 h) w1
  -- entering
  have hm0 : Mono s (openFun F p s) := ⟨fun _ h => h, fun _ h => h, fun _ _ h => h, fun _ h => h⟩
  have ho0 : ∀ G, (openFun F p s).opn G = true ↔ G ∈ F :: st := by
    intro G
    show upd s.opn F true G = true ↔ _
    by_cases hG : G = F
    · subst hG; simp [upd_same]
    · rw [upd_other _ _ hG, ho G]; simp [hG]
  have hi0 : Inv R S D (openFun F p s) := by
    refine ⟨?_, ?_, hi.c, hi.d, hi.e⟩
    · intro x hx hf
      obtain ⟨a1, a2, G, a3, a4, a5, a6⟩ := hi.a x hx hf
      refine ⟨a1, a2, G, a3, a4, a5, ?_⟩
      intro h
      have h' : upd s.opn F true G = false := h
      have hG : G ≠ F := by intro hG; subst hG; rw [upd_same] at h'; cases h'
      rw [upd_other _ _ hG] at h'
      show upd s.binds F 0 G ≤ upd s.selfs F 0 G
      rw [upd_other _ _ hG, upd_other _ _ hG]
      exact a6 h'
    · intro G h h2 h3
      have h' : upd s.opn F true G = false := h
      have hG : G ≠ F := by intro hG; subst hG; rw [upd_same] at h'; cases h'
      rw [upd_other _ _ hG] at h'
      have h3' : upd s.binds F 0 G ≤ upd s.selfs F 0 G := h3
      rw [upd_other _ _ hG, upd_other _ _ hG] at h3'
      exact hi.b G h' h2 h3'
  have sp := hb hi0 ho0
  have hb0 : (openFun F p s).binds F = 0 := upd_same _ _ _
  have hs0 : (openFun F p s).selfs F = 0 := upd_same _ _ _
  have hbG : ∀ G, G ≠ F → (openFun F p s).binds G = s.binds G := fun G h => upd_other _ _ h
  have hsG : ∀ G, G ≠ F → (openFun F p s).selfs G = s.selfs G := fun G h => upd_other _ _ h
  have hFst : F ∈ F :: st := List.mem_cons_self
  -- facts about the function itself
  have share1 : s1.binds F ≤ s1.selfs F → Shareable R S s1 F := by
    intro hle
    have h1 := sp.d1 F hFst
    have h2 := sp.d2 F hFst (by omega)
    exact ⟨fun x hx hm => h2.1 x (w2 x hx (List.mem_of_mem_take hm)) hm,
      fun x hx hm => h2.2 x (w3 x hx (List.mem_of_mem_take hm)) hm⟩
  have flagF : ∀ x ∈ R, s1.flag x.r = true → s1.value x.v = some F → F ∉ x.st →
      s1.binds F ≤ s1.selfs F := by
    intro x hx hf hv hn
    have hf0 : s.flag x.r = true := by
      rcases sp.new x.r hf with h | ⟨y, hy, hyr⟩
      · exact h
      · have hyst := refsOf_stack b (F :: st) y hy F hFst
        have hyR : y ∈ R := hR y hy
        have := hg.node x hx y hyR hyr.symm
        subst this
        exact absurd hyst hn
    obtain ⟨a1, a2, G, a3, a4, a5, a6⟩ := hi.a x hx hf0
    have hGF : G = F := by
      have := sp.mono.value x.v G a3
      rw [hv] at this
      exact (Option.some.inj this).symm
    subst hGF
    have := sp.d3 G hFst (fun y hy hm => (a5.1 y (hR y hy) hm).mono hm0)
      (fun y hy => a5.2 y (hS y hy))
    omega
  -- the parameter
  have sp2 : Spec R S D (F :: st) _ _ _ _ (promoteVar p s1) :=
    sp.comp (promote_spec (st := F :: st) (v := p) sp.inv (by
      intro h0 x hx hxp
      have := (sp.asg p w5).2 ⟨x, w4 x hx hxp, hxp⟩
      omega))
  rw [List.append_nil, List.append_nil, List.append_nil] at sp2
  have hq : ∀ s2 : St, s2 = promoteVar p s1 → s2.binds = s1.binds ∧ s2.selfs = s1.selfs ∧
      s2.flag = s1.flag ∧ s2.value = s1.value ∧ s2.assigns = s1.assigns := by
    intro s2 h; subst h
    unfold promoteVar; split <;> exact ⟨rfl, rfl, rfl, rfl, rfl⟩
  generalize hs2 : promoteVar p s1 = s2 at sp2
  obtain ⟨q1, q2, q3, q4, q5⟩ := hq s2 hs2.symm
  -- the final state
  have main : ∀ s3 : St, s3 = { s2 with
      opts := s3.opts, opn := upd s2.opn F false,
      prev := upd s2.prev F (s2.binds F), defs := upd s2.defs F 0 } →
      Spec R S D st (refsOf (F :: st) b) (setsOf (F :: st) b) (p :: varsOf b) s s3 := by
    intro s3 e
    have hm23 : Mono s2 s3 := by
      rw [e]
      refine ⟨fun _ h => h, fun _ h => h, fun _ _ h => h, ?_⟩
      intro G h
      show upd s2.defs F 0 G = 0
      by_cases hG : G = F
      · subst hG; exact upd_same _ _ _
      · rw [upd_other _ _ hG]; exact h
    have hm : Mono s s3 := hm0.trans (sp2.mono.trans hm23)
    have eopn : s3.opn = upd s2.opn F false := by rw [e]
    have ebinds : s3.binds = s2.binds := by rw [e]
    have eselfs : s3.selfs = s2.selfs := by rw [e]
    have eflag : s3.flag = s2.flag := by rw [e]
    have evalue : s3.value = s2.value := by rw [e]
    have eprev : s3.prev = upd s2.prev F (s2.binds F) := by rw [e]
    have edefs : s3.defs = upd s2.defs F 0 := by rw [e]
    have eassigns : s3.assigns = s2.assigns := by rw [e]
    have econst : s3.isConst = s2.isConst := by rw [e]
    refine ⟨⟨?_, ?_, ?_, ?_, ?_⟩, ?_, hm, ?_, ?_, ?_, ?_, ?_, ?_, ?_⟩
    · intro x hx hf
      rw [eflag] at hf
      obtain ⟨a1, a2, G, a3, a4, a5, a6⟩ := sp2.inv.a x hx hf
      refine ⟨a1, hm23.const _ a2, G, hm23.value _ _ a3, a4, a5.mono hm23, ?_⟩
      intro hcl
      rw [ebinds, eselfs]
      by_cases hG : G = F
      · subst hG
        rw [q1, q2]
        exact flagF x hx (by rw [← q3]; exact hf) (by rw [← q4]; exact a3) a4
      · rw [eopn, upd_other _ _ hG] at hcl
        exact a6 hcl
    · intro G h1 h2 h3
      rw [ebinds, eselfs] at h3
      by_cases hG : G = F
      · subst hG
        rw [q1, q2] at h3
        have hm12 : Mono s1 s3 := by
          refine Mono.trans (b := s2) ?_ hm23
          rw [← hs2]
          exact (promote_spec (st := G :: st) (R := R) (S := S) (D := D) (v := p) sp.inv (by
            intro h0 x hx hxp
            have := (sp.asg p w5).2 ⟨x, w4 x hx hxp, hxp⟩
            omega)).mono
        exact (share1 h3).mono hm12
      · rw [eopn, upd_other _ _ hG] at h1
        rw [edefs, upd_other _ _ hG] at h2
        exact (sp2.inv.b G h1 h2 h3).mono hm23
    · intro x hx G hG hD
      rw [eprev]
      by_cases hGF : G = F
      · subst hGF
        rw [upd_same, q1]
        have := sp.d4 G hFst ⟨x, w2 x hx hG, hD, hG⟩
        omega
      · rw [upd_other _ _ hGF]; exact sp2.inv.c x hx G hG hD
    · intro w G hw
      rw [evalue] at hw
      have := sp2.inv.d w G hw
      exact ⟨this.1, hm23.defs G this.2⟩
    · intro w hw
      rw [econst] at hw
      exact sp2.inv.e w hw
    · rw [eopn, sp2.opn]
      funext G
      by_cases hG : G = F
      · subst hG; rw [upd_same, hFo]
      · rw [upd_other _ _ hG]
        show upd s.opn F true G = s.opn G
        exact upd_other _ _ hG
    · intro r hr
      rw [eflag] at hr
      exact sp2.new r hr
    · intro G hG
      have hGF : G ≠ F := fun h => w1 (h ▸ hG)
      have := sp2.d0 G (List.mem_cons_of_mem _ hG)
      rw [hbG G hGF] at this
      rw [ebinds]; exact this
    · intro G hG
      have hGF : G ≠ F := fun h => w1 (h ▸ hG)
      have := sp2.d1 G (List.mem_cons_of_mem _ hG)
      rw [hbG G hGF, hsG G hGF] at this
      rw [ebinds, eselfs]; exact this
    · intro G hG heq
      have hGF : G ≠ F := fun h => w1 (h ▸ hG)
      rw [ebinds, eselfs] at heq
      have := sp2.d2 G (List.mem_cons_of_mem _ hG) (by rw [hbG G hGF, hsG G hGF]; exact heq)
      exact ⟨fun x hx hmm => (this.1 x hx hmm).mono hm23, this.2⟩
    · intro G hG h1 h2
      have hGF : G ≠ F := fun h => w1 (h ▸ hG)
      have := sp2.d3 G (List.mem_cons_of_mem _ hG) (fun x hx hmm => (h1 x hx hmm).mono hm0) h2
      rw [hbG G hGF, hsG G hGF] at this
      rw [ebinds, eselfs]; exact this
    · intro G hG h1
      have hGF : G ≠ F := fun h => w1 (h ▸ hG)
      have := sp2.d4 G (List.mem_cons_of_mem _ hG) h1
      rw [hbG G hGF] at this
      rw [ebinds]; exact this
    · intro w hw
      have hwp : w ≠ p := fun h => hw (h ▸ List.mem_cons_self)
      have := sp2.asg w (fun h => hw (List.mem_cons_of_mem _ h))
      have h0 : (openFun F p s).assigns w = s.assigns w := upd_other _ _ hwp
      rw [h0] at this
      rw [eassigns]; exact this
  apply main
  unfold endFun closeFun
  rw [hs2]
  simp only
  split <;> rfl

/-- The loop over visits of a function. -/
theorem funLoop_spec {st : List Nat} {F p : Nat} {b : E} {body : St → Option St} (hg : Glob R D)
    (hw : WFfn R S st F p b) (hR : ∀ y ∈ refsOf (F :: st) b, y ∈ R)
    (hS : ∀ y ∈ setsOf (F :: st) b, y ∈ S)
    (hb : ∀ s s1, (∀ G, s.opn G = true ↔ G ∈ F :: st) → Inv R S D s → body s = some s1 →
      Spec R S D (F :: st) (refsOf (F :: st) b) (setsOf (F :: st) b) (varsOf b) s s1) :
    ∀ fuel acc s s', (∀ G, s.opn G = true ↔ G ∈ st) → Inv R S D s →
      funLoop body F p fuel acc s = some s' →
      Spec R S D st (refsOf (F :: st) b) (setsOf (F :: st) b) (p :: varsOf b) s s' ∧
        s'.defs F = 0 := by
  intro fuel
  induction fuel with
  | zero => intro acc s s' _ _ h; cases h
  | succ n ih =>
    intro acc s s' ho hi h
    rw [funLoop] at h
    cases h1 : body (openFun F p s) with
    | none => rw [h1] at h; cases h
    | some s1 =>
      rw [h1] at h
      simp only at h
      have sp := once_spec hg hw hR hS ho hi (fun hi0 ho0 => hb _ _ ho0 hi0 h1)
      split at h
      · cases h
        refine ⟨⟨sp.inv.withOpts _, sp.opn, sp.mono.trans ⟨fun _ h => h, fun _ h => h, fun _ _ h => h, fun _ h => h⟩,
          sp.new, sp.d0, sp.d1, sp.d2, sp.d3, sp.d4, sp.asg⟩, upd_same _ _ _⟩
      · obtain ⟨sp2, hd⟩ := ih _ _ _ (by rw [sp.opn]; exact ho) sp.inv h
        exact ⟨sp.again sp2, hd⟩

theorem funLoop_defs {F p : Nat} {body : St → Option St} {s' : St} : ∀ fuel acc s,
    funLoop body F p fuel acc s = some s' → s'.defs F = 0 := by
  intro fuel
  induction fuel with
  | zero => intro acc s h; cases h
  | succ n ih =>
    intro acc s h
    rw [funLoop] at h
    cases h1 : body (openFun F p s) with
    | none => rw [h1] at h; cases h
    | some s1 =>
      rw [h1] at h
      simp only at h
      split at h
      · cases h; exact upd_same _ _ _
      · exact ih _ _ h

theorem WF_refs : ∀ (e : E) (st : List Nat), WF R S D st e → ∀ x ∈ refsOf st e, x ∈ R := by
  intro e
  induction e with
  | num n => intro st _ x hx; cases hx
  | ref r i v =>
    intro st h x hx
    rw [refsOf, List.mem_singleton] at hx
    subst hx; exact h
  | set i v e ih => intro st h; exact ih st h.2
  | add a b iha ihb | seq a b iha ihb | whl a b iha ihb | call a b iha ihb =>
    intro st h x hx
    rcases List.mem_append.1 hx with hx | hx
    · exact iha st h.1 x hx
    · exact ihb st h.2 x hx
  | ite c a b ihc iha ihb =>
    intro st h x hx
    rcases List.mem_append.1 hx with hx | hx
    · exact ihc st h.1 x hx
    · rcases List.mem_append.1 hx with hx | hx
      · exact iha st h.2.1 x hx
      · exact ihb st h.2.2 x hx
  | fn F p b ih => intro st h; exact ih (F :: st) h.2
  | letv v e rest ihe ihr =>
    intro st h x hx
    rcases List.mem_append.1 hx with hx | hx
    · exact ihe st h.2.2.2.1 x hx
    · exact ihr st h.2.2.2.2 x hx
  | letf v F p b rest ihb ihr =>
    intro st h x hx
    rcases List.mem_append.1 hx with hx | hx
    · exact ihb (F :: st) h.2.2.2.1 x hx
    · exact ihr st h.2.2.2.2 x hx

theorem WF_sets : ∀ (e : E) (st : List Nat), WF R S D st e → ∀ x ∈ setsOf st e, x ∈ S := by
  intro e
  induction e with
  | num n => intro st _ x hx; cases hx
  | ref r i v => intro st _ x hx; cases hx
  | set i v e ih =>
    intro st h x hx
    rcases List.mem_append.1 hx with hx | hx
    · exact ih st h.2 x hx
    · rw [List.mem_singleton] at hx
      subst hx; exact h.1
  | add a b iha ihb | seq a b iha ihb | whl a b iha ihb | call a b iha ihb =>
    intro st h x hx
    rcases List.mem_append.1 hx with hx | hx
    · exact iha st h.1 x hx
    · exact ihb st h.2 x hx
  | ite c a b ihc iha ihb =>
    intro st h x hx
    rcases List.mem_append.1 hx with hx | hx
    · exact ihc st h.1 x hx
    · rcases List.mem_append.1 hx with hx | hx
      · exact iha st h.2.1 x hx
      · exact ihb st h.2.2 x hx
  | fn F p b ih => intro st h; exact ih (F :: st) h.2
  | letv v e rest ihe ihr =>
    intro st h x hx
    rcases List.mem_append.1 hx with hx | hx
    · exact ihe st h.2.2.2.1 x hx
    · exact ihr st h.2.2.2.2 x hx
  | letf v F p b rest ihb ihr =>
    intro st h x hx
    rcases List.mem_append.1 hx with hx | hx
    · exact ihb (F :: st) h.2.2.2.1 x hx
    · exact ihr st h.2.2.2.2 x hx

theorem andThen_some {a b : St → Option St} {s s' : St} (h : andThen a b s = some s') :
    ∃ s1, a s = some s1 ∧ b s1 = some s' := by
  unfold andThen at h
  cases h1 : a s with
  | none => rw [h1] at h; cases h
  | some s1 => rw [h1] at h; exact ⟨s1, rfl, h⟩

/-- Visiting any expression. -/
theorem visit_spec (hg : Glob R D) (fuel : Nat) : ∀ (e : E) (st : List Nat) (s s' : St),
    WF R S D st e → (∀ G, s.opn G = true ↔ G ∈ st) → Inv R S D s → visit fuel st e s = some s' →
    Spec R S D st (refsOf st e) (setsOf st e) (varsOf e) s s' := by
  intro e
  induction e with
  | num n =>
    intro st s s' _ _ hi h
    cases h
    exact Spec.quiet hi rfl (Mono.refl _) rfl rfl rfl (fun _ _ => rfl)
  | ref r i v =>
    intro st s s' hw ho hi h
    cases h
    exact identifier_spec hg ho hi hw
  | set i v e ih =>
    intro st s s' hw ho hi h
    obtain ⟨s1, h1, h2⟩ := andThen_some h
    cases h2
    have a := ih st s s1 hw.2 ho hi h1
    have b := a.comp (assign_spec (by rw [a.opn]; exact ho) a.inv hw.1)
    rw [List.append_nil, List.append_nil] at b
    exact b
  | add a b iha ihb | seq a b iha ihb | whl a b iha ihb | call a b iha ihb =>
    intro st s s' hw ho hi h
    obtain ⟨s1, h1, h2⟩ := andThen_some h
    have a := iha st s s1 hw.1 ho hi h1
    exact a.comp (ihb st s1 s' hw.2 (by rw [a.opn]; exact ho) a.inv h2)
  | ite c a b ihc iha ihb =>
    intro st s s' hw ho hi h
    obtain ⟨s1, h1, h2⟩ := andThen_some h
    obtain ⟨s2, h2, h3⟩ := andThen_some h2
    have c := ihc st s s1 hw.1 ho hi h1
    have ho1 : ∀ G, s1.opn G = true ↔ G ∈ st := by rw [c.opn]; exact ho
    have a := iha st s1 s2 hw.2.1 ho1 c.inv h2
    exact c.comp (a.comp (ihb st s2 s' hw.2.2 (by rw [a.opn]; exact ho1) a.inv h3))
  | fn F p b ih =>
    intro st s s' hw ho hi h
    exact (funLoop_spec hg hw.1 (WF_refs b _ hw.2) (WF_sets b _ hw.2)
      (fun s s1 ho hi h => ih _ s s1 hw.2 ho hi h) _ _ _ _ ho hi h).1
  | letv v e rest ihe ihr =>
    intro st s s' hw ho hi h
    obtain ⟨w1, w2, w3, w4, w5⟩ := hw
    obtain ⟨s1, h1, h2⟩ := andThen_some h
    obtain ⟨s2, h4, h3⟩ := andThen_some h2
    cases h3
    have r := reset_spec (st := st) (v := v) hi
    have a := ihe st (resetVar v s) s1 w4 ho r.inv h1
    have ho1 : ∀ G, s1.opn G = true ↔ G ∈ st := by rw [a.opn]; exact ho
    have hd : ∀ F, e.fun? = some F → s1.defs F = 0 := by
      intro F hF
      cases e with
      | fn G p b =>
        cases hF
        exact funLoop_defs _ _ _ h1
      | _ => cases hF
    have b := value_spec (st := st) a.inv w1 hd
    have c := ihr st (setValue v e.fun? s1) s2 w5 ho1 b.inv h4
    have d := promote_spec (st := st) (v := v) c.inv (by
      intro h0 x hx hxv
      have := (c.asg v w3).2 ⟨x, w2 x hx hxv, hxv⟩
      omega)
    have t := r.comp (a.comp (b.comp (c.comp d)))
    simp only [List.append_nil, List.nil_append] at t
    exact t
  | letf v F p b rest ihb ihr =>
    intro st s s' hw ho hi h
    obtain ⟨w1, w2, w3, w4, w5⟩ := hw
    obtain ⟨s1, h1, h2⟩ := andThen_some h
    obtain ⟨ci, cm⟩ := const_inv (s' := { s with isConst := upd s.isConst v true }) hi w2 rfl
    have r : Spec R S D st [] [] [v] s { s with isConst := upd s.isConst v true } :=
      Spec.quiet ci rfl cm rfl rfl rfl (fun _ _ => rfl)
    obtain ⟨a, hd⟩ := funLoop_spec hg w3 (WF_refs b _ w4) (WF_sets b _ w4)
      (fun s s1 ho hi h => ihb _ s s1 w4 ho hi h) fuel s.opts { s with isConst := upd s.isConst v true } s1 ho ci h1
    have ho1 : ∀ G, s1.opn G = true ↔ G ∈ st := by rw [a.opn]; exact ho
    have b := value_spec (st := st) (f := some F) a.inv w1 (fun G hG => by cases hG; exact hd)
    have c := ihr st (setValue v (some F) s1) s' w5 ho1 b.inv h2
    have t := r.comp (a.comp (b.comp c))
    simp only [List.nil_append] at t
    exact t

theorem init_inv : Inv R S D St.init where
  a := by intro x _ h; cases h
  b := by intro F _ h; cases h
  c := by intro x _ F _ _ h; cases h
  d := by intro v F h; cases h
  e := by intro v h; cases h

theorem passes_inv (hg : Glob R D) {P : E} (hw : WF R S D [] P) (fuel : Nat) : ∀ n s s',
    s.opn = (fun _ => false) → Inv R S D s → passes P fuel n s = some s' →
    Inv R S D s' ∧ s'.opn = (fun _ => false) := by
  intro n
  induction n with
  | zero => intro s s' _ _ h; cases h
  | succ n ih =>
    intro s s' ho hi h
    rw [passes] at h
    cases h1 : visit fuel [] P s with
    | none => rw [h1] at h; cases h
    | some s1 =>
      rw [h1] at h
      simp only at h
      have sp := visit_spec hg fuel P [] s s1 hw (by rw [ho]; simp) hi h1
      have ho1 : s1.opn = (fun _ => false) := by rw [sp.opn]; exact ho
      split at h
      · exact ih s1 s' ho1 sp.inv h
      · cases h; exact ⟨sp.inv, ho1⟩

/-- The invariant holds at the end, when no function is open. -/
theorem optimize_inv (hg : Glob R D) {P : E} (hw : WF R S D [] P) {fuel : Nat} {s : St}
    (h : optimize fuel P = some s) : Inv R S D s ∧ ∀ F, s.opn F = false := by
  obtain ⟨h1, h2⟩ := passes_inv hg hw fuel fuel St.init s rfl init_inv h
  exact ⟨h1, fun F => by rw [h2]⟩

end

end Verif.Clos
