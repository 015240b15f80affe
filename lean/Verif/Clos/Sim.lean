/-
  If functions which are shared use only variables which hold shared functions,
  then the compiled program does what the program means.
-/
import Verif.Clos.Sem

namespace Verif.Clos

/-- Uses outside of a function, seen from outside of it. -/
def lower (l : List (Nat × Nat)) : List (Nat × Nat) :=
  l.filterMap (fun x => if x.1 = 0 then none else some (x.1 - 1, x.2))

theorem mem_lower {l : List (Nat × Nat)} {i v : Nat} : (i, v) ∈ lower l ↔ (i + 1, v) ∈ l := by
  unfold lower
  rw [List.mem_filterMap]
  constructor
  · rintro ⟨⟨j, w⟩, h1, h2⟩
    by_cases hj : j = 0
    · simp [hj] at h2
    · simp [hj] at h2
      obtain ⟨h3, h4⟩ := h2
      have : j = i + 1 := by omega
      subst this; subst h4; exact h1
  · intro h
    exact ⟨(i + 1, v), h, by simp⟩

/-- Uses of variables in an expression and in the functions in it: how many
    functions they leave, and the variable.  Uses which were replaced by
    LOAD.CONST do not count. -/
def uses (flag : Nat → Bool) : E → List (Nat × Nat)
  | .num _ => []
  | .ref r i v => if flag r then [] else [(i, v)]
  | .set i v e => (i, v) :: uses flag e
  | .add a b => uses flag a ++ uses flag b
  | .seq a b => uses flag a ++ uses flag b
  | .ite c a b => uses flag c ++ (uses flag a ++ uses flag b)
  | .whl c b => uses flag c ++ uses flag b
  | .call f a => uses flag f ++ uses flag a
  | .fn _ _ b => lower (uses flag b)
  | .letv _ e rest => uses flag e ++ uses flag rest
  | .letf _ _ _ b rest => lower (uses flag b) ++ uses flag rest

/-- Variables visible in each frame. -/
def push (v : Nat) : List (List Nat) → List (List Nat)
  | [] => []
  | g :: gs => (v :: g) :: gs

theorem lt_of_mem_getD {Γ : List (List Nat)} {i v : Nat} (h : v ∈ Γ.getD i []) : i < Γ.length := by
  rcases Nat.lt_or_ge i Γ.length with h1 | h1
  · exact h1
  · rw [List.getD_eq_getElem?_getD, List.getElem?_eq_none h1] at h
    cases h

section
variable (share flag : Nat → Bool) (tab : Table) (code : Nat → E)

/-- The variable holds a function which is shared. -/
def Shared (v : Nat) : Prop := ∃ F p b, tab v = some (F, p, b) ∧ share F = true

/-- Conditions on a function in the scope `Γ`: if it is shared, then the
    variables of outer functions which it uses hold shared functions. -/
def FnGood (Γ : List (List Nat)) (F p : Nat) (b : E) (body : Prop) : Prop :=
  tab p = none ∧ code F = b ∧ body ∧
  (share F = true → ∀ i v, (i, v) ∈ lower (uses flag b) →
    Shared share tab v ∧ v ∈ Γ.getD i [])

/-- Conditions on a program. -/
def Good : List (List Nat) → E → Prop
  | _, .num _ => True
  | Γ, .ref r i v => flag r = true → Shared share tab v ∧ v ∈ Γ.getD i []
  | Γ, .set _ v e => tab v = none ∧ Good Γ e
  | Γ, .add a b => Good Γ a ∧ Good Γ b
  | Γ, .seq a b => Good Γ a ∧ Good Γ b
  | Γ, .ite c a b => Good Γ c ∧ Good Γ a ∧ Good Γ b
  | Γ, .whl c b => Good Γ c ∧ Good Γ b
  | Γ, .call f a => Good Γ f ∧ Good Γ a
  | Γ, .fn F p b => FnGood share flag tab code Γ F p b (Good ([p] :: Γ) b)
  | Γ, .letv v e rest =>
    (∀ F p b, tab v = some (F, p, b) → e = .fn F p b) ∧ Good Γ e ∧ Good (push v Γ) rest
  | Γ, .letf v F p b rest =>
    tab v = some (F, p, b) ∧
    FnGood share flag tab code (push v Γ) F p b (Good ([p] :: push v Γ) b) ∧
    Good (push v Γ) rest

/-- In the meaning of the program the variable has got its function. -/
def InitR (m : Mem) (φ v : Nat) : Prop :=
  ∃ F p b e, tab v = some (F, p, b) ∧ m.mem φ v = some (.clo F p b e)

/-- In the compiled program the variable has got its shared function. -/
def InitC (m : Mem) (φ v : Nat) : Prop :=
  ∃ F p b, tab v = some (F, p, b) ∧ share F = true ∧ m.mem φ v = some (.cst F p b)

def EnvOK (m : Mem) (Γ : List (List Nat)) (env : List Nat) : Prop :=
  env.length = Γ.length ∧
  ∀ i φ v, env[i]? = some φ → v ∈ Γ.getD i [] → (tab v).isSome → InitR tab m φ v

def EnvRel (m m' : Mem) (U : List (Nat × Nat)) (env env' : List Nat) : Prop :=
  ∀ i v, (i, v) ∈ U → env[i]? = env'[i]? ∨
    (Shared share tab v ∧ ∃ φ φ', env[i]? = some φ ∧ env'[i]? = some φ' ∧
      InitR tab m φ v ∧ InitC share tab m' φ' v)

/-- A value of the program and of the compiled program. -/
def VRel (m m' : Mem) : Val → Val → Prop
  | .num a, .num b => a = b
  | .clo F p b e, .clo F' p' b' e' =>
    F = F' ∧ p = p' ∧ b = b' ∧ share F = false ∧
    ∃ Γ, FnGood share flag tab code Γ F p b (Good share flag tab code ([p] :: Γ) b) ∧
      EnvOK tab m Γ e ∧ EnvRel share tab m m' (lower (uses flag b)) e e'
  | .clo F p b e, .cst F' p' b' =>
    F = F' ∧ p = p' ∧ b = b' ∧ share F = true ∧ (m'.bound F).isSome ∧
    ∃ Γ, FnGood share flag tab code Γ F p b (Good share flag tab code ([p] :: Γ) b) ∧
      EnvOK tab m Γ e
  | _, _ => False

def OptRel (m m' : Mem) : Option Val → Option Val → Prop
  | none, none => True
  | some x, some y => VRel share flag tab code m m' x y
  | _, _ => False

/-- Objects in the table of constants are bound to frames in which the variables
    they use have got their functions. -/
def BoundOK (m' : Mem) : Prop :=
  ∀ F e', m'.bound F = some e' → ∀ i v, (i, v) ∈ lower (uses flag (code F)) →
    ∃ φ', e'[i]? = some φ' ∧ InitC share tab m' φ' v

def HRel (m m' : Mem) : Prop :=
  m.next = m'.next ∧
  (∀ φ v, OptRel share flag tab code m m' (m.mem φ v) (m'.mem φ v)) ∧
  BoundOK share flag tab code m'

/-- Later memories. -/
structure Ext (m m' n n' : Mem) : Prop where
  r : ∀ φ v, InitR tab m φ v → InitR tab n φ v
  c : ∀ φ v, InitC share tab m' φ v → InitC share tab n' φ v
  b : ∀ F, (m'.bound F).isSome → (n'.bound F).isSome

def RRel (m m' : Mem) : Res → Res → Prop
  | .ok x n, .ok y n' =>
    VRel share flag tab code n n' x y ∧ HRel share flag tab code n n' ∧
    Ext share tab m m' n n'
  | .err, .err => True
  | .out, .out => True
  | _, _ => False

variable {share flag tab code}

theorem Ext.refl (m m' : Mem) : Ext share tab m m' m m' := ⟨fun _ _ h => h, fun _ _ h => h, fun _ h => h⟩

theorem Ext.trans {a a' b b' c c' : Mem} (h : Ext share tab a a' b b') (k : Ext share tab b b' c c') :
    Ext share tab a a' c c' :=
  ⟨fun φ v x => k.r φ v (h.r φ v x), fun φ v x => k.c φ v (h.c φ v x), fun F x => k.b F (h.b F x)⟩

theorem EnvOK.mono {m m' n n' : Mem} {Γ env} (h : Ext share tab m m' n n') (k : EnvOK tab m Γ env) :
    EnvOK tab n Γ env :=
  ⟨k.1, fun i φ v h1 h2 h3 => h.r φ v (k.2 i φ v h1 h2 h3)⟩

theorem EnvRel.mono {m m' n n' : Mem} {U env env'} (h : Ext share tab m m' n n')
    (k : EnvRel share tab m m' U env env') : EnvRel share tab n n' U env env' := by
  intro i v hm
  rcases k i v hm with h1 | ⟨h1, φ, φ', h2, h3, h4, h5⟩
  · exact .inl h1
  · exact .inr ⟨h1, φ, φ', h2, h3, h.r _ _ h4, h.c _ _ h5⟩

theorem EnvRel.sub {m m' : Mem} {U U' env env'} (h : ∀ x ∈ U', x ∈ U)
    (k : EnvRel share tab m m' U env env') : EnvRel share tab m m' U' env env' :=
  fun i v hm => k i v (h _ hm)

theorem VRel.mono {m m' n n' : Mem} {x y : Val} (h : Ext share tab m m' n n')
    (k : VRel share flag tab code m m' x y) : VRel share flag tab code n n' x y := by
  cases x <;> cases y <;> simp only [VRel] at k ⊢
  · exact k
  · obtain ⟨h1, h2, h3, h4, Γ, h5, h6, h7⟩ := k
    exact ⟨h1, h2, h3, h4, Γ, h5, h6.mono h, h7.mono h⟩
  · obtain ⟨h1, h2, h3, h4, hb, Γ, h5, h6⟩ := k
    exact ⟨h1, h2, h3, h4, h.b _ hb, Γ, h5, h6.mono h⟩

theorem OptRel.mono {m m' n n' : Mem} {x y : Option Val} (h : Ext share tab m m' n n')
    (k : OptRel share flag tab code m m' x y) : OptRel share flag tab code n n' x y := by
  cases x <;> cases y <;> simp only [OptRel] at k ⊢
  exact VRel.mono h k

/-- A frame in which the variable has got its function in the meaning of the
    program has the shared function in the compiled program. -/
theorem InitR.toC {m m' : Mem} {φ v : Nat} (hm : OptRel share flag tab code m m' (m.mem φ v) (m'.mem φ v))
    (h : InitR tab m φ v) (hs : Shared share tab v) : InitC share tab m' φ v := by
  obtain ⟨F, p, b, e, h1, h2⟩ := h
  obtain ⟨F', p', b', h3, h4⟩ := hs
  rw [h1] at h3
  cases h3
  rw [h2] at hm
  cases hx : m'.mem φ v with
  | none => rw [hx] at hm; simp [OptRel] at hm
  | some y =>
    rw [hx] at hm
    cases y with
    | num n => simp [OptRel, VRel] at hm
    | clo F' p' b' e' =>
      simp only [OptRel, VRel] at hm
      rw [hm.2.2.2.1] at h4; cases h4
    | cst F' p' b' =>
      simp only [OptRel, VRel] at hm
      obtain ⟨h5, h6, h7, -⟩ := hm
      subst h5; subst h6; subst h7
      exact ⟨F, p, b, h1, h4, hx⟩

theorem store_same (m : Mem) (φ v : Nat) (x : Val) : (store m φ v x).mem φ v = some x := by
  simp [store]

theorem store_other (m : Mem) (φ v : Nat) (x : Val) {φ' v' : Nat} (h : ¬ (φ' = φ ∧ v' = v)) :
    (store m φ v x).mem φ' v' = m.mem φ' v' := by
  simp [store, h]

/-- What may be stored in a variable. -/
def Fits (share : Nat → Bool) (tab : Table) (v : Nat) (x y : Val) : Prop :=
  ∀ F p b, tab v = some (F, p, b) → (∃ e, x = .clo F p b e) ∧ (share F = true → y = .cst F p b)

theorem ext_store {m m' : Mem} {φ v : Nat} {x y : Val} (h : Fits share tab v x y)
    (bd : Nat → Option (List Nat)) (hb : ∀ F, (m'.bound F).isSome → (bd F).isSome) :
    Ext share tab m m' (store m φ v x) (store { m' with bound := bd } φ v y) := by
  refine ⟨?_, ?_, hb⟩
  · rintro φ' v' ⟨F, p, b, e, h1, h2⟩
    by_cases hc : φ' = φ ∧ v' = v
    · obtain ⟨c1, c2⟩ := hc
      subst c1; subst c2
      obtain ⟨⟨e', he⟩, -⟩ := h F p b h1
      exact ⟨F, p, b, e', h1, by rw [store_same, he]⟩
    · exact ⟨F, p, b, e, h1, by rw [store_other _ _ _ _ hc]; exact h2⟩
  · rintro φ' v' ⟨F, p, b, h1, h2, h3⟩
    by_cases hc : φ' = φ ∧ v' = v
    · obtain ⟨c1, c2⟩ := hc
      subst c1; subst c2
      exact ⟨F, p, b, h1, h2, by rw [store_same, (h F p b h1).2 h2]⟩
    · exact ⟨F, p, b, h1, h2, by rw [store_other _ _ _ _ hc]; exact h3⟩

theorem hrel_store {m m' : Mem} {φ v : Nat} {x y : Val} (hf : Fits share tab v x y)
    (hr : HRel share flag tab code m m') (hv : VRel share flag tab code m m' x y) :
    HRel share flag tab code (store m φ v x) (store m' φ v y) ∧
    Ext share tab m m' (store m φ v x) (store m' φ v y) := by
  have hx : Ext share tab m m' (store m φ v x) (store m' φ v y) := ext_store hf m'.bound (fun _ h => h)
  refine ⟨⟨hr.1, ?_, ?_⟩, hx⟩
  · intro φ' v'
    by_cases hc : φ' = φ ∧ v' = v
    · obtain ⟨c1, c2⟩ := hc
      subst c1; subst c2
      rw [store_same, store_same]
      exact VRel.mono hx hv
    · rw [store_other _ _ _ _ hc, store_other _ _ _ _ hc]
      exact OptRel.mono hx (hr.2.1 φ' v')
  · intro F e' h1 i w h2
    obtain ⟨φ', h3, h4⟩ := hr.2.2 F e' h1 i w h2
    exact ⟨φ', h3, hx.c _ _ h4⟩

/-- Nothing is held by the variable. -/
theorem fits_none {v : Nat} {x y : Val} (h : tab v = none) : Fits share tab v x y := by
  intro F p b h1
  rw [h] at h1; cases h1

/-- Function literals. -/
theorem fn_rel {m m' : Mem} {Γ env env'} {F p : Nat} {b : E} 
    (hg : FnGood share flag tab code Γ F p b (Good share flag tab code ([p] :: Γ) b))
    (he : EnvOK tab m Γ env) (hrel : EnvRel share tab m m' (lower (uses flag b)) env env')
    (hr : HRel share flag tab code m m') :
    RRel share flag tab code m m' (.ok (.clo F p b env) m)
      (.ok (makeFun share F p b env' m').1 (makeFun share F p b env' m').2) := by
  by_cases hs : share F = true
  · have h1 : (makeFun share F p b env' m').1 = .cst F p b := by simp [makeFun, hs]
    have h2 : (makeFun share F p b env' m').2 =
        { m' with bound := fun G => if G = F then some env' else m'.bound G } := by simp [makeFun, hs]
    rw [h1, h2]
    have hx : Ext share tab m m' m { m' with bound := fun G => if G = F then some env' else m'.bound G } := by
      refine ⟨fun _ _ h => h, fun _ _ h => h, ?_⟩
      intro G h
      simp only
      split
      · rfl
      · exact h
    refine ⟨⟨rfl, rfl, rfl, hs, by simp, Γ, hg, he⟩, ⟨hr.1, fun φ v => OptRel.mono hx (hr.2.1 φ v), ?_⟩, hx⟩
    intro G e' h3 i v h4
    simp only at h3
    by_cases hG : G = F
    · subst hG
      simp only [if_true] at h3
      cases h3
      rw [hg.2.1] at h4
      obtain ⟨h5, h6⟩ := hg.2.2.2 hs i v h4
      rcases hrel i v h4 with h7 | ⟨-, φ, φ', h8, h9, h10, h11⟩
      · have hlt : i < env.length := by rw [he.1]; exact lt_of_mem_getD h6
        have h8 : env[i]? = some env[i] := List.getElem?_eq_getElem hlt
        obtain ⟨F', p', b', h9, h10⟩ := h5
        have hi := he.2 i env[i] v h8 h6 (by rw [h9]; rfl)
        exact ⟨env[i], by rw [← h7]; exact h8, hx.c _ _ (InitR.toC (hr.2.1 _ _) hi ⟨F', p', b', h9, h10⟩)⟩
      · exact ⟨φ', h9, hx.c _ _ h11⟩
    · simp only [if_neg hG] at h3
      obtain ⟨φ', h5, h6⟩ := hr.2.2 G e' h3 i v h4
      exact ⟨φ', h5, hx.c _ _ h6⟩
  · have hs' : share F = false := by simpa using hs
    have h1 : (makeFun share F p b env' m').1 = .clo F p b env' := by simp [makeFun, hs']
    have h2 : (makeFun share F p b env' m').2 = m' := by simp [makeFun, hs']
    rw [h1, h2]
    exact ⟨⟨rfl, rfl, rfl, hs', Γ, hg, he, hrel⟩, hr, Ext.refl _ _⟩

theorem push_getD_zero (v : Nat) (g : List Nat) (gs : List (List Nat)) :
    (push v (g :: gs)).getD 0 [] = v :: g := rfl

theorem push_getD_succ (v : Nat) (g : List Nat) (gs : List (List Nat)) (i : Nat) :
    (push v (g :: gs)).getD (i + 1) [] = gs.getD i [] := by
  simp [push]

theorem envOK_push {m n : Mem} {g gs v φ env}
    (h : EnvOK tab m (g :: gs) (φ :: env)) (hx : ∀ φ v, InitR tab m φ v → InitR tab n φ v)
    (hv : (tab v).isSome → InitR tab n φ v) : EnvOK tab n (push v (g :: gs)) (φ :: env) := by
  refine ⟨by have := h.1; simpa [push] using this, ?_⟩
  intro i ψ w h1 h2 h3
  cases i with
  | zero =>
    rw [push_getD_zero] at h2
    simp only [List.getElem?_cons_zero, Option.some.injEq] at h1
    subst h1
    rcases List.mem_cons.1 h2 with h4 | h4
    · subst h4; exact hv h3
    · exact hx _ _ (h.2 0 φ w rfl (by simpa using h4) h3)
  | succ i =>
    rw [push_getD_succ] at h2
    exact hx _ _ (h.2 (i + 1) ψ w h1 (by simpa using h2) h3)

/-- A declared function: the literal and the store together. -/
theorem letf_rel {m m' : Mem} {g gs φ env env'} {v F p : Nat} {b : E}
    (ht : tab v = some (F, p, b))
    (hg : FnGood share flag tab code (push v (g :: gs)) F p b
      (Good share flag tab code ([p] :: push v (g :: gs)) b))
    (he : EnvOK tab m (g :: gs) (φ :: env))
    (hrel : EnvRel share tab m m' (lower (uses flag b)) (φ :: env) (φ :: env'))
    (hr : HRel share flag tab code m m') :
    let n := store m φ v (.clo F p b (φ :: env))
    let n' := store (makeFun share F p b (φ :: env') m').2 φ v (makeFun share F p b (φ :: env') m').1
    HRel share flag tab code n n' ∧ Ext share tab m m' n n' ∧
      EnvOK tab n (push v (g :: gs)) (φ :: env) := by
  intro n n'
  by_cases hs : share F = true
  · have h1 : (makeFun share F p b (φ :: env') m').1 = .cst F p b := by simp [makeFun, hs]
    have h2 : (makeFun share F p b (φ :: env') m').2 =
        { m' with bound := fun G => if G = F then some (φ :: env') else m'.bound G } := by
      simp [makeFun, hs]
    have hn' : n' = store { m' with bound := fun G => if G = F then some (φ :: env') else m'.bound G }
        φ v (.cst F p b) := by show store _ φ v _ = _; rw [h1, h2]
    have hf : Fits share tab v (.clo F p b (φ :: env)) (.cst F p b) := by
      intro F' p' b' h3
      rw [ht] at h3; cases h3
      exact ⟨⟨_, rfl⟩, fun _ => rfl⟩
    have hx : Ext share tab m m' n n' := by
      rw [hn']
      refine ext_store hf _ ?_
      intro G h
      by_cases hG : G = F
      · rw [if_pos hG]; rfl
      · rw [if_neg hG]; exact h
    have hok : EnvOK tab n (push v (g :: gs)) (φ :: env) :=
      envOK_push he hx.r (fun _ => ⟨F, p, b, _, ht, store_same _ _ _ _⟩)
    have hmem : ∀ ψ w, OptRel share flag tab code n n' (n.mem ψ w) (n'.mem ψ w) := by
      intro ψ w
      by_cases hc : ψ = φ ∧ w = v
      · obtain ⟨c1, c2⟩ := hc
        subst c1; subst c2
        have e1 : n.mem ψ w = some (.clo F p b (ψ :: env)) := store_same _ _ _ _
        have e2 : n'.mem ψ w = some (.cst F p b) := by rw [hn']; exact store_same _ _ _ _
        rw [e1, e2]
        refine ⟨rfl, rfl, rfl, hs, ?_, _, hg, hok⟩
        rw [hn']; simp [store]
      · have e1 : n.mem ψ w = m.mem ψ w := store_other _ _ _ _ hc
        have e2 : n'.mem ψ w = m'.mem ψ w := by rw [hn', store_other _ _ _ _ hc]
        rw [e1, e2]
        exact OptRel.mono hx (hr.2.1 ψ w)
    refine ⟨⟨by rw [hn']; exact hr.1, hmem, ?_⟩, hx, hok⟩
    intro G e' h3 i w h4
    rw [hn'] at h3
    simp only [store] at h3
    by_cases hG : G = F
    · subst hG
      simp only [if_true] at h3
      cases h3
      rw [hg.2.1] at h4
      obtain ⟨h5, h6⟩ := hg.2.2.2 hs i w h4
      rcases hrel i w h4 with h7 | ⟨-, ψ, ψ', h8, h9, h10, h11⟩
      · have hlt : i < (φ :: env).length := by rw [hok.1]; exact lt_of_mem_getD h6
        have h8 : (φ :: env)[i]? = some (φ :: env)[i] := List.getElem?_eq_getElem hlt
        obtain ⟨F', p', b', h9, h10⟩ := h5
        have hi := hok.2 i _ w h8 h6 (by rw [h9]; rfl)
        exact ⟨_, by rw [← h7]; exact h8, InitR.toC (hmem _ _) hi ⟨F', p', b', h9, h10⟩⟩
      · exact ⟨ψ', h9, hx.c _ _ h11⟩
    · simp only [if_neg hG] at h3
      obtain ⟨φ', h5, h6⟩ := hr.2.2 G e' h3 i w h4
      exact ⟨φ', h5, hx.c _ _ h6⟩
  · have hs' : share F = false := by simpa using hs
    have h1 : (makeFun share F p b (φ :: env') m').1 = .clo F p b (φ :: env') := by simp [makeFun, hs']
    have h2 : (makeFun share F p b (φ :: env') m').2 = m' := by simp [makeFun, hs']
    have hn' : n' = store m' φ v (.clo F p b (φ :: env')) := by
      show store _ φ v _ = _; rw [h1, h2]
    have hf : Fits share tab v (.clo F p b (φ :: env)) (.clo F p b (φ :: env')) := by
      intro F' p' b' h3
      rw [ht] at h3; cases h3
      exact ⟨⟨_, rfl⟩, fun h => by rw [hs'] at h; cases h⟩
    have hx : Ext share tab m m' n n' := by
      rw [hn']; exact ext_store hf m'.bound (fun _ h => h)
    have hok : EnvOK tab n (push v (g :: gs)) (φ :: env) :=
      envOK_push he hx.r (fun _ => ⟨F, p, b, _, ht, store_same _ _ _ _⟩)
    refine ⟨⟨by rw [hn']; exact hr.1, ?_, ?_⟩, hx, hok⟩
    · intro ψ w
      by_cases hc : ψ = φ ∧ w = v
      · obtain ⟨c1, c2⟩ := hc
        subst c1; subst c2
        have e1 : n.mem ψ w = some (.clo F p b (ψ :: env)) := store_same _ _ _ _
        have e2 : n'.mem ψ w = some (.clo F p b (ψ :: env')) := by rw [hn']; exact store_same _ _ _ _
        rw [e1, e2]
        exact ⟨rfl, rfl, rfl, hs', _, hg, hok, hrel.mono hx⟩
      · have e1 : n.mem ψ w = m.mem ψ w := store_other _ _ _ _ hc
        have e2 : n'.mem ψ w = m'.mem ψ w := by rw [hn', store_other _ _ _ _ hc]
        rw [e1, e2]
        exact OptRel.mono hx (hr.2.1 ψ w)
    · intro G e' h3 i w h4
      obtain ⟨φ', h5, h6⟩ := hr.2.2 G e' (by rw [hn'] at h3; exact h3) i w h4
      exact ⟨φ', h5, hx.c _ _ h6⟩

/-- Result seen from an earlier memory. -/
theorem RRel.before {m m' n n' : Mem} {a a' : Res} (h : Ext share tab m m' n n')
    (k : RRel share flag tab code n n' a a') : RRel share flag tab code m m' a a' := by
  cases a <;> cases a' <;> simp only [RRel] at k ⊢
  exact ⟨k.1, k.2.1, h.trans k.2.2⟩

/-- Sequencing. -/
theorem bind_rel {m m' : Mem} {a a' : Res} {f f' : Val → Mem → Res}
    (h : RRel share flag tab code m m' a a')
    (k : ∀ x y n n', VRel share flag tab code n n' x y → HRel share flag tab code n n' →
      Ext share tab m m' n n' → RRel share flag tab code n n' (f x n) (f' y n')) :
    RRel share flag tab code m m' (a.bind f) (a'.bind f') := by
  cases a <;> cases a' <;> simp only [RRel] at h <;> simp only [Res.bind]
  · obtain ⟨h1, h2, h3⟩ := h
    exact RRel.before h3 (k _ _ _ _ h1 h2 h3)
  · trivial
  · trivial

theorem enter_rel {m m' : Mem} {p : Nat} {x y : Val} (hp : tab p = none)
    (hr : HRel share flag tab code m m') (hv : VRel share flag tab code m m' x y) :
    HRel share flag tab code (enter m p x) (enter m' p y) ∧
    Ext share tab m m' (enter m p x) (enter m' p y) := by
  have hx0 : Ext share tab m m' { m with next := m.next + 1 } { m' with next := m'.next + 1 } :=
    ⟨fun _ _ h => h, fun _ _ h => h, fun _ h => h⟩
  have h0 : HRel share flag tab code { m with next := m.next + 1 } { m' with next := m'.next + 1 } := by
    refine ⟨by show m.next + 1 = m'.next + 1; rw [hr.1], ?_, ?_⟩
    · intro φ v; exact OptRel.mono hx0 (hr.2.1 φ v)
    · intro F e' h1 i v h2
      obtain ⟨φ', h3, h4⟩ := hr.2.2 F e' h1 i v h2
      exact ⟨φ', h3, hx0.c _ _ h4⟩
  have := hrel_store (φ := m.next) (v := p) (fits_none hp) h0 (VRel.mono hx0 hv)
  have e : enter m' p y = store { m' with next := m'.next + 1 } m.next p y := by
    unfold enter; rw [hr.1]
  rw [e]
  exact ⟨this.1, hx0.trans this.2⟩

theorem truthy_rel {m m' : Mem} {x y : Val} (h : VRel share flag tab code m m' x y) :
    truthy x = truthy y := by
  cases x <;> cases y <;> simp only [VRel] at h <;> simp [truthy]
  rw [h]

theorem add_rel {m m' : Mem} {x y x' y' : Val} (h : VRel share flag tab code m m' x x')
    (k : VRel share flag tab code m m' y y') :
    (addVal x y = none ∧ addVal x' y' = none) ∨
    ∃ a, addVal x y = some (.num a) ∧ addVal x' y' = some (.num a) := by
  cases x <;> cases x' <;> simp only [VRel] at h <;> cases y <;> cases y' <;>
    simp only [VRel] at k <;> simp [addVal]
  rw [h, k]

theorem readVar_some {env : List Nat} {i v : Nat} {m : Mem} {φ : Nat} (h : env[i]? = some φ) :
    readVar env i v m = m.mem φ v := by
  simp [readVar, h]

/-- Calls. -/
theorem callee_rel {m m' : Mem} {f f' : Val} (h : VRel share flag tab code m m' f f')
    (hr : HRel share flag tab code m m') :
    (callee m f = none ∧ callee m' f' = none) ∨
    ∃ p b env env' Γ F, callee m f = some (p, b, env) ∧ callee m' f' = some (p, b, env') ∧
      FnGood share flag tab code Γ F p b (Good share flag tab code ([p] :: Γ) b) ∧
      EnvOK tab m Γ env ∧ EnvRel share tab m m' (lower (uses flag b)) env env' := by
  cases f <;> cases f' <;> simp only [VRel] at h
  · exact .inl ⟨rfl, rfl⟩
  · obtain ⟨h1, h2, h3, h4, Γ, h5, h6, h7⟩ := h
    subst h1; subst h2; subst h3
    exact .inr ⟨_, _, _, _, Γ, _, rfl, rfl, h5, h6, h7⟩
  · rename_i F p b env F' p' b'
    obtain ⟨h1, h2, h3, h4, hb, Γ, h5, h6⟩ := h
    subst h1; subst h2; subst h3
    obtain ⟨e', he'⟩ := Option.isSome_iff_exists.1 hb
    refine .inr ⟨_, _, _, e', Γ, F, rfl, by simp [callee, he'], h5, h6, ?_⟩
    intro i v hm
    obtain ⟨h7, h8⟩ := h5.2.2.2 h4 i v hm
    have hlt : i < env.length := by rw [h6.1]; exact lt_of_mem_getD h8
    have h9 : env[i]? = some env[i] := List.getElem?_eq_getElem hlt
    obtain ⟨F', p', b', h10, h11⟩ := h7
    have hi := h6.2 i _ v h9 h8 (by rw [h10]; rfl)
    obtain ⟨φ', h12, h13⟩ := hr.2.2 F e' he' i v (by rw [h5.2.1]; exact hm)
    exact .inr ⟨⟨F', p', b', h10, h11⟩, _, φ', h9, h12, hi, h13⟩

/-- The compiled program does what the program means. -/
theorem eval_rel : ∀ (n : Nat) (e : E) (env env' : List Nat) (φ : Nat) (g : List Nat)
    (gs : List (List Nat)) (m m' : Mem),
    Good share flag tab code (g :: gs) e → EnvOK tab m (g :: gs) (φ :: env) →
    EnvRel share tab m m' (uses flag e) (φ :: env) (φ :: env') →
    HRel share flag tab code m m' →
    RRel share flag tab code m m'
      (eval (fun _ => false) (fun _ => false) tab n (φ :: env) e m)
      (eval share flag tab n (φ :: env') e m') := by
  intro n
  induction n with
  | zero => intros; trivial
  | succ n ih =>
    intro e env env' φ g gs m m' hg he hrel hr
    cases e with
    | num k => exact ⟨rfl, hr, Ext.refl _ _⟩
    | ref r i v =>
      simp only [eval, evalRef]
      by_cases hfl : flag r = true
      · obtain ⟨hs, hv⟩ := hg hfl
        have hlt : i < (φ :: env).length := by rw [he.1]; exact lt_of_mem_getD hv
        have h9 : (φ :: env)[i]? = some (φ :: env)[i] := List.getElem?_eq_getElem hlt
        obtain ⟨F', p', b', h10, h11⟩ := hs
        have hi := he.2 i _ v h9 hv (by rw [h10]; rfl)
        obtain ⟨F, p, b, e, h1, h2⟩ := hi
        rw [h10] at h1; cases h1
        obtain ⟨F1, p1, b1, h3, h4, h5⟩ := InitR.toC (hr.2.1 _ _) ⟨F', p', b', e, h10, h2⟩ ⟨F', p', b', h10, h11⟩
        rw [h10] at h3; cases h3
        have := hr.2.1 (φ :: env)[i] v
        rw [h2, h5] at this
        rw [readVar_some h9, h2]
        simp only [hfl, if_true, h10]
        exact ⟨this, hr, Ext.refl _ _⟩
      · simp only [hfl]
        have hu := hrel i v (by simp [uses, hfl])
        rcases hu with h1 | ⟨hs, ψ, ψ', h2, h3, h4, h5⟩
        · have : readVar (φ :: env') i v m' = readVar (φ :: env) i v m' := by
            unfold readVar; rw [← h1]
          rw [this]
          unfold readVar
          cases hq : (φ :: env)[i]? with
          | none => simp [RRel]
          | some ψ =>
            simp only
            have h6 := hr.2.1 ψ v
            cases hx : m.mem ψ v <;> cases hy : m'.mem ψ v <;> rw [hx, hy] at h6 <;>
              simp only [OptRel] at h6
            · simp [RRel]
            · exact ⟨h6, hr, Ext.refl _ _⟩
        · obtain ⟨F, p, b, e, h6, h7⟩ := h4
          obtain ⟨F1, p1, b1, h8, h9, h10⟩ := h5
          rw [h6] at h8; cases h8
          have h11 := hr.2.1 ψ v
          obtain ⟨F2, p2, b2, h12, h13, h14⟩ := InitR.toC h11 ⟨F, p, b, e, h6, h7⟩ hs
          rw [h6] at h12; cases h12
          rw [h7, h14] at h11
          rw [readVar_some h2, readVar_some h3, h7, h10]
          exact ⟨h11, hr, Ext.refl _ _⟩
    | set i v e =>
      simp only [eval]
      refine bind_rel (ih e env env' φ g gs m m' hg.2 he (hrel.sub (by intro x hx; simp [uses, hx])) hr) ?_
      intro x y k k' hv hr' hx
      rcases hrel i v (by simp [uses]) with h1 | ⟨⟨F, p, b, h2, -⟩, -⟩
      · unfold writeVar
        rw [← h1]
        cases (φ :: env)[i]? with
        | none => trivial
        | some ψ =>
          have := hrel_store (φ := ψ) (v := v) (fits_none hg.1) hr' hv
          exact ⟨VRel.mono this.2 hv, this.1, this.2⟩
      · rw [hg.1] at h2; cases h2
    | add a b =>
      simp only [eval]
      refine bind_rel (ih a env env' φ g gs m m' hg.1 he (hrel.sub (by intro x hx; simp [uses, hx])) hr) ?_
      intro x y k k' hv hr' hx
      refine bind_rel (ih b env env' φ g gs k k' hg.2 (he.mono hx)
        ((hrel.sub (by intro x hx; simp [uses, hx])).mono hx) hr') ?_
      intro x2 y2 k2 k2' hv2 hr2 hx2
      rcases add_rel (VRel.mono hx2 hv) hv2 with ⟨h1, h2⟩ | ⟨c, h1, h2⟩
      · rw [h1, h2]; trivial
      · rw [h1, h2]; exact ⟨rfl, hr2, Ext.refl _ _⟩
    | seq a b =>
      simp only [eval]
      refine bind_rel (ih a env env' φ g gs m m' hg.1 he (hrel.sub (by intro x hx; simp [uses, hx])) hr) ?_
      intro x y k k' hv hr' hx
      exact ih b env env' φ g gs k k' hg.2 (he.mono hx)
        ((hrel.sub (by intro x hx; simp [uses, hx])).mono hx) hr'
    | ite c a b =>
      simp only [eval]
      refine bind_rel (ih c env env' φ g gs m m' hg.1 he (hrel.sub (by intro x hx; simp [uses, hx])) hr) ?_
      intro x y k k' hv hr' hx
      rw [truthy_rel hv]
      split
      · exact ih a env env' φ g gs k k' hg.2.1 (he.mono hx)
          ((hrel.sub (by intro x hx; simp [uses, hx])).mono hx) hr'
      · exact ih b env env' φ g gs k k' hg.2.2 (he.mono hx)
          ((hrel.sub (by intro x hx; simp [uses, hx])).mono hx) hr'
    | whl c b =>
      simp only [eval]
      refine bind_rel (ih c env env' φ g gs m m' hg.1 he (hrel.sub (by intro x hx; simp [uses, hx])) hr) ?_
      intro x y k k' hv hr' hx
      rw [truthy_rel hv]
      split
      · refine bind_rel (ih b env env' φ g gs k k' hg.2 (he.mono hx)
          ((hrel.sub (by intro x hx; simp [uses, hx])).mono hx) hr') ?_
        intro x2 y2 k2 k2' hv2 hr2 hx2
        exact ih (.whl c b) env env' φ g gs k2 k2' hg (he.mono (hx.trans hx2))
          (hrel.mono (hx.trans hx2)) hr2
      · exact ⟨hv, hr', Ext.refl _ _⟩
    | call f a =>
      simp only [eval]
      refine bind_rel (ih f env env' φ g gs m m' hg.1 he (hrel.sub (by intro x hx; simp [uses, hx])) hr) ?_
      intro x y k k' hv hr' hx
      refine bind_rel (ih a env env' φ g gs k k' hg.2 (he.mono hx)
        ((hrel.sub (by intro x hx; simp [uses, hx])).mono hx) hr') ?_
      intro x2 y2 k2 k2' hv2 hr2 hx2
      rcases callee_rel (VRel.mono hx2 hv) hr2 with ⟨h1, h2⟩ | ⟨p, b, e1, e1', Γ, F, h1, h2, h3, h4, h5⟩
      · rw [h1, h2]; trivial
      · rw [h1, h2]
        simp only
        obtain ⟨h6, h7⟩ := enter_rel h3.1 hr2 hv2
        refine RRel.before h7 ?_
        rw [← hr2.1]
        refine ih b e1 e1' k2.next [p] Γ _ _ h3.2.2.1 ?_ ?_ h6
        · have h4' := h4.mono h7
          refine ⟨by simp [h4'.1], ?_⟩
          intro i ψ w q1 q2 q3
          cases i with
          | zero =>
            have : w = p := by simpa using q2
            subst this
            rw [h3.1] at q3; cases q3
          | succ i => exact h4'.2 i ψ w (by simpa using q1) (by simpa using q2) q3
        · have h5' := h5.mono h7
          intro i w hm
          cases i with
          | zero => left; rfl
          | succ i =>
            have := h5' i w (mem_lower.2 hm)
            simpa using this
    | fn F p b =>
      simp only [eval]
      exact fn_rel hg he hrel hr
    | letv v e rest =>
      simp only [eval]
      obtain ⟨hg1, hg2, hg3⟩ := hg
      by_cases ht : (tab v).isSome
      · obtain ⟨⟨F, p, b⟩, ht⟩ := Option.isSome_iff_exists.1 ht
        have he' := hg1 F p b ht
        subst he'
        cases n with
        | zero => simp [eval, Res.bind, RRel]
        | succ n =>
          have h1 := fn_rel hg2 he (hrel.sub (U' := lower (uses flag b)) (by intro x hx; simp [uses, hx])) hr
          simp only [eval, Res.bind, letVar]
          obtain ⟨h2, h3, h4⟩ := h1
          have hf : Fits share tab v (.clo F p b (φ :: env)) (makeFun share F p b (φ :: env') m').1 := by
            intro F' p' b' h5
            rw [ht] at h5; cases h5
            exact ⟨⟨_, rfl⟩, fun h => by simp [makeFun, h]⟩
          obtain ⟨h5, h6⟩ := hrel_store (φ := φ) (v := v) hf h3 h2
          have h7 := h4.trans h6
          have e0 : makeFun (fun _ => false) F p b (φ :: env) m = (.clo F p b (φ :: env), m) := rfl
          rw [e0]
          refine RRel.before h7 (ih rest env env' φ (v :: g) gs _ _ hg3 ?_ ?_ h5)
          · exact envOK_push he h7.r (fun _ => ⟨F, p, b, _, ht, store_same _ _ _ _⟩)
          · exact (hrel.sub (by intro x hx; simp [uses, hx])).mono h7
      · have ht' : tab v = none := by simpa using ht
        refine bind_rel (ih e env env' φ g gs m m' hg2 he (hrel.sub (by intro x hx; simp [uses, hx])) hr) ?_
        intro x y k k' hv hr' hx
        simp only [letVar]
        obtain ⟨h5, h6⟩ := hrel_store (φ := φ) (v := v) (fits_none ht') hr' hv
        refine RRel.before h6 (ih rest env env' φ (v :: g) gs _ _ hg3 ?_ ?_ h5)
        · exact envOK_push he (fun _ _ h => h6.r _ _ (hx.r _ _ h)) (fun h => by rw [ht'] at h; cases h)
        · exact (hrel.sub (by intro x hx; simp [uses, hx])).mono (hx.trans h6)
    | letf v F p b rest =>
      simp only [eval, letVar]
      obtain ⟨hg1, hg2, hg3⟩ := hg
      obtain ⟨h1, h2, h3⟩ := letf_rel (env' := env') hg1 hg2 he
        (hrel.sub (by intro x hx; simp [uses, hx])) hr
      exact RRel.before h2 (ih rest env env' φ (v :: g) gs _ _ hg3 h3
        ((hrel.sub (by intro x hx; simp [uses, hx])).mono h2) h1)

end

/-- Whole programs. -/
theorem run_rel {share flag : Nat → Bool} {tab : Table} {code : Nat → E} {P : E}
    (hg : Good share flag tab code [[]] P) (n : Nat) :
    (eval share flag tab n [0] P Mem.start).obs =
    (eval (fun _ => false) (fun _ => false) tab n [0] P Mem.start).obs := by
  have h0 : HRel share flag tab code Mem.start Mem.start := by
    refine ⟨rfl, fun _ _ => trivial, ?_⟩
    intro F e' h
    cases h
  have he : EnvOK tab Mem.start [[]] [0] := by
    refine ⟨rfl, ?_⟩
    intro i φ v h1 h2
    cases i <;> simp at h2
  have := eval_rel n P [] [] 0 [] [] Mem.start Mem.start hg he (fun _ _ _ => .inl rfl) h0
  revert this
  cases eval (fun _ => false) (fun _ => false) tab n [0] P Mem.start <;>
    cases eval share flag tab n [0] P Mem.start <;> simp only [RRel] <;> intro this <;>
    first | exact this.elim | rfl | trivial | skip
  · obtain ⟨h1, -, -⟩ := this
    revert h1
    rename_i x _ y _
    cases x <;> cases y <;> simp only [VRel] <;> intro h1 <;> first | exact h1.elim | rfl | skip
    · subst h1; rfl

end Verif.Clos
