/-
  From programs in which names are resolved to the conditions of the two proofs.
-/
import Verif.Clos.Inv
import Verif.Clos.Sim

namespace Verif.Clos

/-- All functions. -/
def funsOf : E → List Nat
  | .num _ => []
  | .ref _ _ _ => []
  | .set _ _ e => funsOf e
  | .add a b => funsOf a ++ funsOf b
  | .seq a b => funsOf a ++ funsOf b
  | .ite c a b => funsOf c ++ (funsOf a ++ funsOf b)
  | .whl c b => funsOf c ++ funsOf b
  | .call f a => funsOf f ++ funsOf a
  | .fn F _ b => F :: funsOf b
  | .letv _ e rest => funsOf e ++ funsOf rest
  | .letf _ F _ b rest => F :: funsOf b ++ funsOf rest

/-- The function literal of a declaration. -/
def E.lit? : E → Option (Nat × Nat × E)
  | .fn F p b => some (F, p, b)
  | _ => none

/-- The function literal with which a variable is declared, if any. -/
def declOf : E → Nat → Option (Nat × Nat × E)
  | .num _, _ => none
  | .ref _ _ _, _ => none
  | .set _ _ e, w => declOf e w
  | .add a b, w => (declOf a w).or (declOf b w)
  | .seq a b, w => (declOf a w).or (declOf b w)
  | .ite c a b, w => (declOf c w).or ((declOf a w).or (declOf b w))
  | .whl c b, w => (declOf c w).or (declOf b w)
  | .call f a, w => (declOf f w).or (declOf a w)
  | .fn _ _ b, w => declOf b w
  | .letv v e rest, w => if w = v then e.lit? else (declOf e w).or (declOf rest w)
  | .letf v F p b rest, w => if w = v then some (F, p, b) else (declOf b w).or (declOf rest w)

/-- The body of a function. -/
def bodyOf : E → Nat → Option E
  | .num _, _ => none
  | .ref _ _ _, _ => none
  | .set _ _ e, G => bodyOf e G
  | .add a b, G => (bodyOf a G).or (bodyOf b G)
  | .seq a b, G => (bodyOf a G).or (bodyOf b G)
  | .ite c a b, G => (bodyOf c G).or ((bodyOf a G).or (bodyOf b G))
  | .whl c b, G => (bodyOf c G).or (bodyOf b G)
  | .call f a, G => (bodyOf f G).or (bodyOf a G)
  | .fn F _ b, G => if G = F then some b else bodyOf b G
  | .letv _ e rest, G => (bodyOf e G).or (bodyOf rest G)
  | .letf _ F _ b rest, G => if G = F then some b else (bodyOf b G).or (bodyOf rest G)

/-- Each use of a variable and each assignment is in the scope of the variable;
    `Γ` are the variables visible in the current function and in each outer one. -/
def Scoped : List (List Nat) → E → Prop
  | _, .num _ => True
  | Γ, .ref _ i v => v ∈ Γ.getD i []
  | Γ, .set i v e => v ∈ Γ.getD i [] ∧ Scoped Γ e
  | Γ, .add a b => Scoped Γ a ∧ Scoped Γ b
  | Γ, .seq a b => Scoped Γ a ∧ Scoped Γ b
  | Γ, .ite c a b => Scoped Γ c ∧ Scoped Γ a ∧ Scoped Γ b
  | Γ, .whl c b => Scoped Γ c ∧ Scoped Γ b
  | Γ, .call f a => Scoped Γ f ∧ Scoped Γ a
  | Γ, .fn _ p b => Scoped ([p] :: Γ) b
  | Γ, .letv v e rest => Scoped Γ e ∧ Scoped (push v Γ) rest
  | Γ, .letf v _ p b rest => Scoped ([p] :: push v Γ) b ∧ Scoped (push v Γ) rest

/-- Constants: variables declared by `letf`. -/
def constsOf : E → List Nat
  | .num _ => []
  | .ref _ _ _ => []
  | .set _ _ e => constsOf e
  | .add a b => constsOf a ++ constsOf b
  | .seq a b => constsOf a ++ constsOf b
  | .ite c a b => constsOf c ++ (constsOf a ++ constsOf b)
  | .whl c b => constsOf c ++ constsOf b
  | .call f a => constsOf f ++ constsOf a
  | .fn _ _ b => constsOf b
  | .letv _ e rest => constsOf e ++ constsOf rest
  | .letf v _ _ b rest => v :: (constsOf b ++ constsOf rest)

/-- A program in which names are resolved: functions, variables and nodes have
    numbers of their own, variables are used in their scopes, constants are not
    assigned. -/
structure Resolved (P : E) : Prop where
  funs : (funsOf P).Nodup
  vars : (varsOf P).Nodup
  nodes : ((refsOf [] P).map Use.r).Nodup
  scopes : Scoped [[]] P
  consts : ∀ x ∈ setsOf [] P, x.v ∉ constsOf P

theorem declOf_none : ∀ (e : E) (w : Nat), w ∉ varsOf e → declOf e w = none := by
  intro e
  induction e <;> intro w hw <;> simp_all [declOf, varsOf]

theorem bodyOf_none : ∀ (e : E) (G : Nat), G ∉ funsOf e → bodyOf e G = none := by
  intro e
  induction e <;> intro w hw <;> simp_all [bodyOf, funsOf]

theorem lit_fun : ∀ e : E, e.fun? = (e.lit?).map (·.1) := by intro e; cases e <;> rfl

theorem refsOf_in : ∀ (e : E) (st : List Nat) (x : Use), x ∈ refsOf st e →
    ∀ F ∈ x.st, F ∈ st ∨ F ∈ funsOf e := by
  intro e
  induction e with
  | num => intro st x hx; cases hx
  | ref r i v =>
    intro st x hx F hF
    rw [refsOf, List.mem_singleton] at hx
    subst hx; exact .inl hF
  | set i v e ih => intro st x hx; exact ih st x hx
  | add a b iha ihb | seq a b iha ihb | whl a b iha ihb | call a b iha ihb | letv v a b iha ihb =>
    intro st x hx F hF
    rw [refsOf, List.mem_append] at hx
    rw [funsOf, List.mem_append]
    rcases hx with hx | hx
    · have := iha st x hx F hF; grind
    · have := ihb st x hx F hF; grind
  | ite c a b ihc iha ihb =>
    intro st x hx F hF
    rw [refsOf, List.mem_append, List.mem_append] at hx
    rw [funsOf, List.mem_append, List.mem_append]
    rcases hx with hx | hx | hx
    · have := ihc st x hx F hF; grind
    · have := iha st x hx F hF; grind
    · have := ihb st x hx F hF; grind
  | fn G p b ih =>
    intro st x hx F hF
    have := ih (G :: st) x hx F hF
    rw [funsOf]; grind
  | letf v G p b rest ihb ihr =>
    intro st x hx F hF
    rw [refsOf, List.mem_append] at hx
    rw [funsOf]
    rcases hx with hx | hx
    · have := ihb (G :: st) x hx F hF; grind
    · have := ihr st x hx F hF; grind

theorem setsOf_in : ∀ (e : E) (st : List Nat) (x : Asg), x ∈ setsOf st e →
    ∀ F ∈ x.st, F ∈ st ∨ F ∈ funsOf e := by
  intro e
  induction e with
  | num => intro st x hx; cases hx
  | ref r i v => intro st x hx; cases hx
  | set i v e ih =>
    intro st x hx F hF
    rw [setsOf, List.mem_append, List.mem_singleton] at hx
    rcases hx with hx | hx
    · exact ih st x hx F hF
    · subst hx; exact .inl hF
  | add a b iha ihb | seq a b iha ihb | whl a b iha ihb | call a b iha ihb | letv v a b iha ihb =>
    intro st x hx F hF
    rw [setsOf, List.mem_append] at hx
    rw [funsOf, List.mem_append]
    rcases hx with hx | hx
    · have := iha st x hx F hF; grind
    · have := ihb st x hx F hF; grind
  | ite c a b ihc iha ihb =>
    intro st x hx F hF
    rw [setsOf, List.mem_append, List.mem_append] at hx
    rw [funsOf, List.mem_append, List.mem_append]
    rcases hx with hx | hx | hx
    · have := ihc st x hx F hF; grind
    · have := iha st x hx F hF; grind
    · have := ihb st x hx F hF; grind
  | fn G p b ih =>
    intro st x hx F hF
    have := ih (G :: st) x hx F hF
    rw [funsOf]; grind
  | letf v G p b rest ihb ihr =>
    intro st x hx F hF
    rw [setsOf, List.mem_append] at hx
    rw [funsOf]
    rcases hx with hx | hx
    · have := ihb (G :: st) x hx F hF; grind
    · have := ihr st x hx F hF; grind

theorem inj_of_nodup : ∀ {l : List Use}, (l.map Use.r).Nodup → ∀ {x y : Use}, x ∈ l → y ∈ l →
    x.r = y.r → x = y := by
  intro l
  induction l with
  | nil => intro _ x y hx; cases hx
  | cons z l ih =>
    intro hn x y hx hy hr
    rw [List.map_cons, List.nodup_cons] at hn
    rcases List.mem_cons.1 hx with h1 | h1 <;> rcases List.mem_cons.1 hy with h2 | h2
    · rw [h1, h2]
    · subst h1; exact absurd (List.mem_map.2 ⟨y, h2, hr.symm⟩) hn.1
    · subst h2; exact absurd (List.mem_map.2 ⟨x, h1, hr⟩) hn.1
    · exact ih hn.2 h1 h2 hr

/-- Visible somewhere. -/
def Vis (Γ : List (List Nat)) (v : Nat) : Prop := ∃ j, v ∈ Γ.getD j []

theorem vis_push {Γ : List (List Nat)} {w v : Nat} (h : Vis (push w Γ) v) : v = w ∨ Vis Γ v := by
  obtain ⟨j, hj⟩ := h
  cases Γ with
  | nil => right; exact ⟨j, hj⟩
  | cons g gs =>
    cases j with
    | zero =>
      simp [push] at hj
      rcases hj with h | h
      · exact .inl h
      · exact .inr ⟨0, by simpa using h⟩
    | succ j => exact .inr ⟨j + 1, by simpa [push] using hj⟩

theorem vis_cons {Γ : List (List Nat)} {p v : Nat} (h : Vis ([p] :: Γ) v) : v = p ∨ Vis Γ v := by
  obtain ⟨j, hj⟩ := h
  cases j with
  | zero => left; simpa using hj
  | succ j => exact .inr ⟨j, by simpa using hj⟩

theorem setsOf_vis : ∀ (e : E) (st : List Nat) (Γ : List (List Nat)), Scoped Γ e →
    ∀ x ∈ setsOf st e, Vis Γ x.v ∨ x.v ∈ varsOf e := by
  intro e
  induction e with
  | num => intro st Γ _ x hx; cases hx
  | ref r i v => intro st Γ _ x hx; cases hx
  | set i v e ih =>
    intro st Γ hs x hx
    rw [setsOf, List.mem_append, List.mem_singleton] at hx
    rcases hx with hx | hx
    · exact ih st Γ hs.2 x hx
    · subst hx; exact .inl ⟨i, hs.1⟩
  | add a b iha ihb | seq a b iha ihb | whl a b iha ihb | call a b iha ihb =>
    intro st Γ hs x hx
    rw [setsOf, List.mem_append] at hx
    rw [varsOf, List.mem_append]
    rcases hx with hx | hx
    · have := iha st Γ hs.1 x hx; grind
    · have := ihb st Γ hs.2 x hx; grind
  | ite c a b ihc iha ihb =>
    intro st Γ hs x hx
    rw [setsOf, List.mem_append, List.mem_append] at hx
    rw [varsOf, List.mem_append, List.mem_append]
    rcases hx with hx | hx | hx
    · have := ihc st Γ hs.1 x hx; grind
    · have := iha st Γ hs.2.1 x hx; grind
    · have := ihb st Γ hs.2.2 x hx; grind
  | fn G p b ih =>
    intro st Γ hs x hx
    rw [varsOf]
    rcases ih (G :: st) _ hs x hx with h | h
    · rcases vis_cons h with h | h
      · right; rw [h]; exact List.mem_cons_self
      · exact .inl h
    · right; exact List.mem_cons_of_mem _ h
  | letv v a b iha ihb =>
    intro st Γ hs x hx
    rw [setsOf, List.mem_append] at hx
    rw [varsOf]
    rcases hx with hx | hx
    · have := iha st Γ hs.1 x hx; grind
    · rcases ihb st _ hs.2 x hx with h | h
      · have := vis_push h; grind
      · grind
  | letf v G p b rest ihb ihr =>
    intro st Γ hs x hx
    rw [setsOf, List.mem_append] at hx
    rw [varsOf]
    rcases hx with hx | hx
    · rcases ihb (G :: st) _ hs.1 x hx with h | h
      · rcases vis_cons h with h | h
        · grind
        · have := vis_push h; grind
      · grind
    · rcases ihr st _ hs.2 x hx with h | h
      · have := vis_push h; grind
      · grind

section
variable (R : List Use) (S : List Asg) (T : Nat → Option (Nat × Nat × E)) (C : Nat → Option E)

/-- What is known about a part of a program. -/
structure Ctx (Γ : List (List Nat)) (st : List Nat) (FS VS : List Nat) (RS : List Use)
    (SS : List Asg) (dc : Nat → Option (Nat × Nat × E)) (bd : Nat → Option E) : Prop where
  nF : FS.Nodup
  nV : VS.Nodup
  fst : ∀ F ∈ FS, F ∉ st
  fR : ∀ F ∈ FS, ∀ x ∈ R, F ∈ x.st → x ∈ RS
  fS : ∀ F ∈ FS, ∀ x ∈ S, F ∈ x.st → x ∈ SS
  vS : ∀ v ∈ VS, ∀ x ∈ S, x.v = v → x ∈ SS
  vG : ∀ v ∈ VS, ¬ Vis Γ v
  rIn : ∀ x ∈ RS, x ∈ R
  sIn : ∀ x ∈ SS, x ∈ S
  decl : ∀ v ∈ VS, T v = dc v
  body : ∀ F ∈ FS, C F = bd F
  leave : ∀ j w F p b, w ∈ Γ.getD j [] → T w = some (F, p, b) → F ∈ st → F ∈ st.take j

variable {R S T C}

/-- Context of an expression. -/
def CtxE (R : List Use) (S : List Asg) (T : Nat → Option (Nat × Nat × E)) (C : Nat → Option E)
    (Γ : List (List Nat)) (st : List Nat) (e : E) : Prop :=
  Ctx R S T C Γ st (funsOf e) (varsOf e) (refsOf st e) (setsOf st e) (declOf e) (bodyOf e)

/-- Context of two expressions, one after another. -/
def Ctx2 (R : List Use) (S : List Asg) (T : Nat → Option (Nat × Nat × E)) (C : Nat → Option E)
    (Γ : List (List Nat)) (st : List Nat) (a b : E) : Prop :=
  Ctx R S T C Γ st (funsOf a ++ funsOf b) (varsOf a ++ varsOf b) (refsOf st a ++ refsOf st b)
    (setsOf st a ++ setsOf st b) (fun w => (declOf a w).or (declOf b w))
    (fun G => (bodyOf a G).or (bodyOf b G))

theorem Ctx2.left {Γ st a b} (h : Ctx2 R S T C Γ st a b)
    (hs : ∀ x ∈ setsOf st b, x.v ∉ varsOf a) : CtxE R S T C Γ st a := by
  have n1 := List.nodup_append.1 h.nF
  have n2 := List.nodup_append.1 h.nV
  refine ⟨n1.1, n2.1, fun F hF => h.fst F (List.mem_append_left _ hF), ?_, ?_, ?_,
    fun v hv => h.vG v (List.mem_append_left _ hv), fun x hx => h.rIn x (List.mem_append_left _ hx),
    fun x hx => h.sIn x (List.mem_append_left _ hx), ?_, ?_, h.leave⟩
  · intro F hF x hx hm
    rcases List.mem_append.1 (h.fR F (List.mem_append_left _ hF) x hx hm) with h1 | h1
    · exact h1
    · rcases refsOf_in b st x h1 F hm with h2 | h2
      · exact absurd h2 (h.fst F (List.mem_append_left _ hF))
      · exact absurd rfl (n1.2.2 F hF F h2)
  · intro F hF x hx hm
    rcases List.mem_append.1 (h.fS F (List.mem_append_left _ hF) x hx hm) with h1 | h1
    · exact h1
    · rcases setsOf_in b st x h1 F hm with h2 | h2
      · exact absurd h2 (h.fst F (List.mem_append_left _ hF))
      · exact absurd rfl (n1.2.2 F hF F h2)
  · intro v hv x hx hxv
    rcases List.mem_append.1 (h.vS v (List.mem_append_left _ hv) x hx hxv) with h1 | h1
    · exact h1
    · exact absurd (hxv ▸ hv) (hs x h1)
  · intro v hv
    rw [h.decl v (List.mem_append_left _ hv)]
    have : declOf b v = none := declOf_none b v (fun hb => n2.2.2 v hv v hb rfl)
    simp only [this, Option.or_none]
  · intro F hF
    rw [h.body F (List.mem_append_left _ hF)]
    have : bodyOf b F = none := bodyOf_none b F (fun hb => n1.2.2 F hF F hb rfl)
    simp only [this, Option.or_none]

theorem Ctx2.right {Γ st a b} (h : Ctx2 R S T C Γ st a b) (hs : Scoped Γ a) : CtxE R S T C Γ st b := by
  have n1 := List.nodup_append.1 h.nF
  have n2 := List.nodup_append.1 h.nV
  refine ⟨n1.2.1, n2.2.1, fun F hF => h.fst F (List.mem_append_right _ hF), ?_, ?_, ?_,
    fun v hv => h.vG v (List.mem_append_right _ hv), fun x hx => h.rIn x (List.mem_append_right _ hx),
    fun x hx => h.sIn x (List.mem_append_right _ hx), ?_, ?_, h.leave⟩
  · intro F hF x hx hm
    rcases List.mem_append.1 (h.fR F (List.mem_append_right _ hF) x hx hm) with h1 | h1
    · rcases refsOf_in a st x h1 F hm with h2 | h2
      · exact absurd h2 (h.fst F (List.mem_append_right _ hF))
      · exact absurd rfl (n1.2.2 F h2 F hF)
    · exact h1
  · intro F hF x hx hm
    rcases List.mem_append.1 (h.fS F (List.mem_append_right _ hF) x hx hm) with h1 | h1
    · rcases setsOf_in a st x h1 F hm with h2 | h2
      · exact absurd h2 (h.fst F (List.mem_append_right _ hF))
      · exact absurd rfl (n1.2.2 F h2 F hF)
    · exact h1
  · intro v hv x hx hxv
    rcases List.mem_append.1 (h.vS v (List.mem_append_right _ hv) x hx hxv) with h1 | h1
    · rcases setsOf_vis a st Γ hs x h1 with h2 | h2
      · rw [hxv] at h2; exact absurd h2 (h.vG v (List.mem_append_right _ hv))
      · rw [hxv] at h2; exact absurd rfl (n2.2.2 v h2 v hv)
    · exact h1
  · intro v hv
    rw [h.decl v (List.mem_append_right _ hv)]
    have : declOf a v = none := declOf_none a v (fun hb => n2.2.2 v hb v hv rfl)
    simp only [this, Option.none_or]
  · intro F hF
    rw [h.body F (List.mem_append_right _ hF)]
    have : bodyOf a F = none := bodyOf_none a F (fun hb => n1.2.2 F hb F hF rfl)
    simp only [this, Option.none_or]


theorem Ctx2.left' {Γ st a b} (h : Ctx2 R S T C Γ st a b) (hs : Scoped Γ b) : CtxE R S T C Γ st a := by
  refine h.left ?_
  intro x hx hm
  have n2 := List.nodup_append.1 h.nV
  rcases setsOf_vis b st Γ hs x hx with h2 | h2
  · exact h.vG x.v (List.mem_append_left _ hm) h2
  · exact n2.2.2 _ hm _ h2 rfl

theorem getD_push {Γ : List (List Nat)} {v w j : Nat} (h : w ∈ (push v Γ).getD j []) :
    (j = 0 ∧ w = v) ∨ w ∈ Γ.getD j [] := by
  cases Γ with
  | nil => right; exact h
  | cons g gs =>
    cases j with
    | zero =>
      simp [push] at h
      rcases h with h | h
      · exact .inl ⟨rfl, h⟩
      · right; simpa using h
    | succ j => right; simpa [push] using h

theorem Ctx.push {Γ st FS VS RS SS dc bd v} (h : Ctx R S T C Γ st FS VS RS SS dc bd)
    (hv : v ∉ VS) (hF : ∀ F p b, T v = some (F, p, b) → F ∉ st) :
    Ctx R S T C (push v Γ) st FS VS RS SS dc bd := by
  refine ⟨h.nF, h.nV, h.fst, h.fR, h.fS, h.vS, ?_, h.rIn, h.sIn, h.decl, h.body, ?_⟩
  · intro w hw hvis
    rcases vis_push hvis with h1 | h1
    · subst h1; exact hv hw
    · exact h.vG w hw h1
  · intro j w F p b hw hT hm
    rcases getD_push hw with ⟨h1, h2⟩ | h1
    · subst h2; exact absurd hm (hF F p b hT)
    · exact h.leave j w F p b h1 hT hm

/-- A parameter holds no function literal. -/
theorem CtxE.param {Γ st F p b} (h : CtxE R S T C Γ st (.fn F p b)) : T p = none := by
  rw [h.decl p List.mem_cons_self]
  exact declOf_none b p (List.nodup_cons.1 h.nV).1

theorem CtxE.fnBody {Γ st F p b} (h : CtxE R S T C Γ st (.fn F p b)) :
    CtxE R S T C ([p] :: Γ) (F :: st) b := by
  have n1 := List.nodup_cons.1 h.nF
  have n2 := List.nodup_cons.1 h.nV
  refine ⟨n1.2, n2.2, ?_, fun G hG => h.fR G (List.mem_cons_of_mem _ hG),
    fun G hG => h.fS G (List.mem_cons_of_mem _ hG), fun v hv => h.vS v (List.mem_cons_of_mem _ hv),
    ?_, h.rIn, h.sIn, fun v hv => h.decl v (List.mem_cons_of_mem _ hv), ?_, ?_⟩
  · intro G hG hm
    rcases List.mem_cons.1 hm with h1 | h1
    · subst h1; exact n1.1 hG
    · exact h.fst G (List.mem_cons_of_mem _ hG) h1
  · intro v hv hvis
    rcases vis_cons hvis with h1 | h1
    · subst h1; exact n2.1 hv
    · exact h.vG v (List.mem_cons_of_mem _ hv) h1
  · intro G hG
    rw [h.body G (List.mem_cons_of_mem _ hG), bodyOf, if_neg (fun (hh : G = F) => n1.1 (hh ▸ hG))]
  · intro j w G q c hw hT hm
    cases j with
    | zero =>
      have : w = p := by simpa using hw
      subst this
      rw [h.param] at hT; cases hT
    | succ j =>
      have hw' : w ∈ Γ.getD j [] := by simpa using hw
      rw [List.take_succ_cons]
      rcases List.mem_cons.1 hm with h1 | h1
      · subst h1; exact List.mem_cons_self
      · exact List.mem_cons_of_mem _ (h.leave j w G q c hw' hT h1)

theorem CtxE.letv1 {Γ st v e rest} (h : CtxE R S T C Γ st (.letv v e rest))
    (hs : Scoped (Verif.Clos.push v Γ) rest) : CtxE R S T C Γ st e := by
  have n2 := List.nodup_cons.1 h.nV
  have n3 := List.nodup_append.1 n2.2
  have h2 : Ctx2 R S T C Γ st e rest := by
    refine ⟨h.nF, n2.2, h.fst, h.fR, h.fS, fun w hw => h.vS w (List.mem_cons_of_mem _ hw),
      fun w hw => h.vG w (List.mem_cons_of_mem _ hw), h.rIn, h.sIn, ?_, h.body, h.leave⟩
    intro w hw
    rw [h.decl w (List.mem_cons_of_mem _ hw), declOf, if_neg (fun (hh : w = v) => n2.1 (hh ▸ hw))]
  refine h2.left ?_
  intro x hx hm
  rcases setsOf_vis rest st _ hs x hx with h3 | h3
  · rcases vis_push h3 with h4 | h4
    · exact n2.1 (h4 ▸ List.mem_append_left _ hm)
    · exact h2.vG x.v (List.mem_append_left _ hm) h4
  · exact n3.2.2 _ hm _ h3 rfl

theorem CtxE.letvVal {Γ st v e rest} (h : CtxE R S T C Γ st (.letv v e rest)) : T v = e.lit? := by
  rw [h.decl v List.mem_cons_self, declOf, if_pos rfl]

theorem CtxE.letv2 {Γ st v e rest} (h : CtxE R S T C Γ st (.letv v e rest)) (hs : Scoped Γ e) :
    CtxE R S T C (Verif.Clos.push v Γ) st rest := by
  have n2 := List.nodup_cons.1 h.nV
  have h2 : Ctx2 R S T C Γ st e rest := by
    refine ⟨h.nF, n2.2, h.fst, h.fR, h.fS, fun w hw => h.vS w (List.mem_cons_of_mem _ hw),
      fun w hw => h.vG w (List.mem_cons_of_mem _ hw), h.rIn, h.sIn, ?_, h.body, h.leave⟩
    intro w hw
    rw [h.decl w (List.mem_cons_of_mem _ hw), declOf, if_neg (fun (hh : w = v) => n2.1 (hh ▸ hw))]
  refine Ctx.push (h2.right hs) (fun hm => n2.1 (List.mem_append_right _ hm)) ?_
  intro F p b hT
  rw [h.letvVal] at hT
  cases e with
  | fn G q c => cases hT; exact h.fst F List.mem_cons_self
  | _ => cases hT

theorem CtxE.letfVal {Γ st v F p b rest} (h : CtxE R S T C Γ st (.letf v F p b rest)) :
    T v = some (F, p, b) := by
  rw [h.decl v List.mem_cons_self, declOf, if_pos rfl]

theorem CtxE.letf2 {Γ st v F p b rest} (h : CtxE R S T C Γ st (.letf v F p b rest)) :
    Ctx2 R S T C (Verif.Clos.push v Γ) st (.fn F p b) rest := by
  have n2 := List.nodup_cons.1 h.nV
  have h2 : Ctx2 R S T C Γ st (.fn F p b) rest := by
    refine ⟨h.nF, n2.2, h.fst, h.fR, h.fS, fun w hw => h.vS w (List.mem_cons_of_mem _ hw),
      fun w hw => h.vG w (List.mem_cons_of_mem _ hw), h.rIn, h.sIn, ?_, ?_, h.leave⟩
    · intro w hw
      rw [h.decl w (List.mem_cons_of_mem _ hw)]
      simp only [declOf]
      rw [if_neg (fun (hh : w = v) => n2.1 (hh ▸ hw))]
    · intro G hG
      rw [h.body G hG, bodyOf, bodyOf]
      split <;> rfl
  refine Ctx.push h2 n2.1 ?_
  intro G q c hT
  rw [h.letfVal] at hT
  cases hT
  exact h.fst F List.mem_cons_self

/-- Declared functions. -/
def funOf (T : Nat → Option (Nat × Nat × E)) (v : Nat) : Option Nat := (T v).map (·.1)

theorem funOf_some {v F : Nat} (h : funOf T v = some F) : ∃ p b, T v = some (F, p, b) := by
  unfold funOf at h
  cases h1 : T v with
  | none => rw [h1] at h; cases h
  | some t =>
    obtain ⟨G, p, b⟩ := t
    rw [h1] at h
    cases h
    exact ⟨p, b, rfl⟩

theorem CtxE.wfFn {Γ st F p b} (h : CtxE R S T C Γ st (.fn F p b)) : WFfn R S st F p b :=
  ⟨h.fst F List.mem_cons_self, h.fR F List.mem_cons_self, h.fS F List.mem_cons_self,
   h.vS p List.mem_cons_self, (List.nodup_cons.1 h.nV).1⟩

/-- The conditions of the proof about the optimizer hold. -/
theorem wf_of_ctx : ∀ (e : E) (Γ : List (List Nat)) (st : List Nat), CtxE R S T C Γ st e →
    Scoped Γ e → (∀ x ∈ S, x.v ∉ constsOf e) →
    WF R S (funOf T) st e ∧
    ∀ x ∈ refsOf st e, ∀ F, funOf T x.v = some F → F ∈ x.st → F ∈ x.st.take x.i := by
  intro e
  induction e with
  | num => intro Γ st _ _ _; exact ⟨trivial, fun x hx => by cases hx⟩
  | ref r i v =>
    intro Γ st h hs _
    refine ⟨h.rIn _ (List.mem_singleton.2 rfl), ?_⟩
    intro x hx F hF hm
    rw [refsOf, List.mem_singleton] at hx
    subst hx
    obtain ⟨p, b, hT⟩ := funOf_some hF
    exact h.leave i v F p b hs hT hm
  | set i v e ih =>
    intro Γ st h hs hc
    have h1 : CtxE R S T C Γ st e := by
      refine ⟨h.nF, h.nV, h.fst, h.fR, ?_, ?_, h.vG, h.rIn,
        fun x hx => h.sIn x (List.mem_append_left _ hx), h.decl, h.body, h.leave⟩
      · intro F hF x hx hm
        rcases List.mem_append.1 (h.fS F hF x hx hm) with h2 | h2
        · exact h2
        · rw [List.mem_singleton] at h2
          subst h2
          exact absurd hm (h.fst F hF)
      · intro w hw x hx hxv
        rcases List.mem_append.1 (h.vS w hw x hx hxv) with h2 | h2
        · exact h2
        · rw [List.mem_singleton] at h2
          subst h2
          subst hxv
          exact absurd ⟨i, hs.1⟩ (h.vG _ hw)
    obtain ⟨a, b⟩ := ih Γ st h1 hs.2 hc
    exact ⟨⟨h.sIn _ (List.mem_append_right _ (List.mem_singleton.2 rfl)), a⟩, b⟩
  | add a b iha ihb | seq a b iha ihb | whl a b iha ihb | call a b iha ihb =>
    intro Γ st h hs hc
    have h2 : Ctx2 R S T C Γ st a b := h
    obtain ⟨a1, a2⟩ := iha Γ st (h2.left' hs.2) hs.1 (fun x hx hm => hc x hx (List.mem_append_left _ hm))
    obtain ⟨b1, b2⟩ := ihb Γ st (h2.right hs.1) hs.2 (fun x hx hm => hc x hx (List.mem_append_right _ hm))
    refine ⟨⟨a1, b1⟩, ?_⟩
    intro x hx
    rcases List.mem_append.1 hx with h3 | h3
    · exact a2 x h3
    · exact b2 x h3
  | ite c a b ihc iha ihb =>
    intro Γ st h hs hc
    have h2 : Ctx2 R S T C Γ st c (.seq a b) := h
    have h3 : Ctx2 R S T C Γ st a b := h2.right hs.1
    obtain ⟨c1, c2⟩ := ihc Γ st (h2.left' hs.2) hs.1 (fun x hx hm => hc x hx (List.mem_append_left _ hm))
    obtain ⟨a1, a2⟩ := iha Γ st (h3.left' hs.2.2) hs.2.1
      (fun x hx hm => hc x hx (List.mem_append_right _ (List.mem_append_left _ hm)))
    obtain ⟨b1, b2⟩ := ihb Γ st (h3.right hs.2.1) hs.2.2
      (fun x hx hm => hc x hx (List.mem_append_right _ (List.mem_append_right _ hm)))
    refine ⟨⟨c1, a1, b1⟩, ?_⟩
    intro x hx
    rcases List.mem_append.1 hx with h4 | h4
    · exact c2 x h4
    · rcases List.mem_append.1 h4 with h4 | h4
      · exact a2 x h4
      · exact b2 x h4
  | fn F p b ih =>
    intro Γ st h hs hc
    obtain ⟨a, b⟩ := ih _ _ h.fnBody hs hc
    exact ⟨⟨h.wfFn, a⟩, b⟩
  | letv v e rest ihe ihr =>
    intro Γ st h hs hc
    have h1 := h.letv1 hs.2
    have h2 := h.letv2 hs.1
    obtain ⟨a1, a2⟩ := ihe Γ st h1 hs.1 (fun x hx hm => hc x hx (List.mem_append_left _ hm))
    obtain ⟨b1, b2⟩ := ihr _ st h2 hs.2 (fun x hx hm => hc x hx (List.mem_append_right _ hm))
    refine ⟨⟨?_, ?_, ?_, a1, b1⟩, ?_⟩
    · unfold funOf; rw [h.letvVal, lit_fun]
    · intro x hx hxv
      rcases List.mem_append.1 (h.vS v List.mem_cons_self x hx hxv) with h3 | h3
      · exfalso
        have n2 := List.nodup_cons.1 h.nV
        rcases setsOf_vis e st Γ hs.1 x h3 with h4 | h4
        · rw [hxv] at h4; exact h.vG v List.mem_cons_self h4
        · rw [hxv] at h4; exact n2.1 (List.mem_append_left _ h4)
      · exact h3
    · intro hm
      exact (List.nodup_cons.1 h.nV).1 (List.mem_append_right _ hm)
    · intro x hx
      rcases List.mem_append.1 hx with h3 | h3
      · exact a2 x h3
      · exact b2 x h3
  | letf v F p b rest ihb ihr =>
    intro Γ st h hs hc
    have h2 := h.letf2
    have h3 := h2.left' hs.2
    have h4 := h2.right (show Scoped (push v Γ) (.fn F p b) from hs.1)
    obtain ⟨a1, a2⟩ := ihb _ _ h3.fnBody hs.1
      (fun x hx hm => hc x hx (List.mem_cons_of_mem _ (List.mem_append_left _ hm)))
    obtain ⟨b1, b2⟩ := ihr _ st h4 hs.2
      (fun x hx hm => hc x hx (List.mem_cons_of_mem _ (List.mem_append_right _ hm)))
    refine ⟨⟨?_, ?_, h3.wfFn, a1, b1⟩, ?_⟩
    · unfold funOf; rw [h.letfVal]; rfl
    · intro x hx hxv
      exact hc x hx (hxv ▸ List.mem_cons_self)
    · intro x hx
      rcases List.mem_append.1 hx with h5 | h5
      · exact a2 x h5
      · exact b2 x h5

/-- A use of a variable which leaves `i` functions is in some function inside. -/
theorem uses_cross (flag : Nat → Bool) : ∀ (e : E) (st : List Nat) (i v : Nat), (i, v) ∈ uses flag e →
    (∃ x ∈ refsOf st e, x.v = v ∧ flag x.r = false ∧ ∃ pre, x.st = pre ++ st ∧ x.i = pre.length + i) ∨
    (∃ x ∈ setsOf st e, x.v = v ∧ ∃ pre, x.st = pre ++ st ∧ x.i = pre.length + i) := by
  intro e
  induction e with
  | num => intro st i v h; cases h
  | ref r j w =>
    intro st i v h
    rw [uses] at h
    cases hf : flag r with
    | true => rw [hf] at h; cases h
    | false =>
      rw [hf] at h
      have h' : (i, v) = (j, w) := by simpa using h
      cases h'
      exact .inl ⟨_, List.mem_singleton.2 rfl, rfl, hf, [], rfl, by simp⟩
  | set j w e ih =>
    intro st i v h
    rw [uses] at h
    rcases List.mem_cons.1 h with h | h
    · cases h
      exact .inr ⟨_, List.mem_append_right _ (List.mem_singleton.2 rfl), rfl, [], rfl, by simp⟩
    · rcases ih st i v h with ⟨x, hx, h1⟩ | ⟨x, hx, h1⟩
      · exact .inl ⟨x, hx, h1⟩
      · exact .inr ⟨x, List.mem_append_left _ hx, h1⟩
  | add a b iha ihb | seq a b iha ihb | whl a b iha ihb | call a b iha ihb | letv w a b iha ihb =>
    intro st i v h
    rw [uses] at h
    rcases List.mem_append.1 h with h | h
    · rcases iha st i v h with ⟨x, hx, h1⟩ | ⟨x, hx, h1⟩
      · exact .inl ⟨x, List.mem_append_left _ hx, h1⟩
      · exact .inr ⟨x, List.mem_append_left _ hx, h1⟩
    · rcases ihb st i v h with ⟨x, hx, h1⟩ | ⟨x, hx, h1⟩
      · exact .inl ⟨x, List.mem_append_right _ hx, h1⟩
      · exact .inr ⟨x, List.mem_append_right _ hx, h1⟩
  | ite c a b ihc iha ihb =>
    intro st i v h
    rw [uses] at h
    rcases List.mem_append.1 h with h | h
    · rcases ihc st i v h with ⟨x, hx, h1⟩ | ⟨x, hx, h1⟩
      · exact .inl ⟨x, List.mem_append_left _ hx, h1⟩
      · exact .inr ⟨x, List.mem_append_left _ hx, h1⟩
    · rcases List.mem_append.1 h with h | h
      · rcases iha st i v h with ⟨x, hx, h1⟩ | ⟨x, hx, h1⟩
        · exact .inl ⟨x, List.mem_append_right _ (List.mem_append_left _ hx), h1⟩
        · exact .inr ⟨x, List.mem_append_right _ (List.mem_append_left _ hx), h1⟩
      · rcases ihb st i v h with ⟨x, hx, h1⟩ | ⟨x, hx, h1⟩
        · exact .inl ⟨x, List.mem_append_right _ (List.mem_append_right _ hx), h1⟩
        · exact .inr ⟨x, List.mem_append_right _ (List.mem_append_right _ hx), h1⟩
  | fn F p b ih =>
    intro st i v h
    rw [uses, mem_lower] at h
    rcases ih (F :: st) (i + 1) v h with ⟨x, hx, h1, h2, pre, h3, h4⟩ | ⟨x, hx, h1, pre, h3, h4⟩
    · exact .inl ⟨x, hx, h1, h2, pre ++ [F], by simp [h3], by simp [h4]; omega⟩
    · exact .inr ⟨x, hx, h1, pre ++ [F], by simp [h3], by simp [h4]; omega⟩
  | letf w F p b rest ihb ihr =>
    intro st i v h
    rw [uses] at h
    rcases List.mem_append.1 h with h | h
    · rw [mem_lower] at h
      rcases ihb (F :: st) (i + 1) v h with ⟨x, hx, h1, h2, pre, h3, h4⟩ | ⟨x, hx, h1, pre, h3, h4⟩
      · exact .inl ⟨x, List.mem_append_left _ hx, h1, h2, pre ++ [F], by simp [h3], by simp [h4]; omega⟩
      · exact .inr ⟨x, List.mem_append_left _ hx, h1, pre ++ [F], by simp [h3], by simp [h4]; omega⟩
    · rcases ihr st i v h with ⟨x, hx, h1⟩ | ⟨x, hx, h1⟩
      · exact .inl ⟨x, List.mem_append_right _ hx, h1⟩
      · exact .inr ⟨x, List.mem_append_right _ hx, h1⟩

theorem push_succ (Γ : List (List Nat)) (v i : Nat) : (push v Γ).getD (i + 1) [] = Γ.getD (i + 1) [] := by
  cases Γ <;> simp [push]

theorem uses_vis (flag : Nat → Bool) : ∀ (e : E) (Γ : List (List Nat)) (i v : Nat), Scoped Γ e →
    (i + 1, v) ∈ uses flag e → v ∈ Γ.getD (i + 1) [] := by
  intro e
  induction e with
  | num => intro Γ i v _ h; cases h
  | ref r j w =>
    intro Γ i v hs h
    rw [uses] at h
    cases hf : flag r with
    | true => rw [hf] at h; cases h
    | false =>
      rw [hf] at h
      have h' : (i + 1, v) = (j, w) := by simpa using h
      cases h'
      exact hs
  | set j w e ih =>
    intro Γ i v hs h
    rw [uses] at h
    rcases List.mem_cons.1 h with h | h
    · cases h; exact hs.1
    · exact ih Γ i v hs.2 h
  | add a b iha ihb | seq a b iha ihb | whl a b iha ihb | call a b iha ihb =>
    intro Γ i v hs h
    rw [uses] at h
    rcases List.mem_append.1 h with h | h
    · exact iha Γ i v hs.1 h
    · exact ihb Γ i v hs.2 h
  | letv w a b iha ihb =>
    intro Γ i v hs h
    rw [uses] at h
    rcases List.mem_append.1 h with h | h
    · exact iha Γ i v hs.1 h
    · rw [← push_succ Γ w]; exact ihb _ i v hs.2 h
  | ite c a b ihc iha ihb =>
    intro Γ i v hs h
    rw [uses] at h
    rcases List.mem_append.1 h with h | h
    · exact ihc Γ i v hs.1 h
    · rcases List.mem_append.1 h with h | h
      · exact iha Γ i v hs.2.1 h
      · exact ihb Γ i v hs.2.2 h
  | fn F p b ih =>
    intro Γ i v hs h
    rw [uses, mem_lower] at h
    simpa using ih _ (i + 1) v hs h
  | letf w F p b rest ihb ihr =>
    intro Γ i v hs h
    rw [uses] at h
    rcases List.mem_append.1 h with h | h
    · rw [mem_lower] at h
      have := ihb _ (i + 1) v hs.1 h
      rw [← push_succ Γ w]
      simpa using this
    · rw [← push_succ Γ w]; exact ihr _ i v hs.2 h

/-- The function literals of variables which are never assigned. -/
def tabOf (S : List Asg) (T : Nat → Option (Nat × Nat × E)) : Table :=
  fun v => if S.any (fun x => x.v == v) then none else T v

theorem tab_set {x : Asg} (h : x ∈ S) : tabOf S T x.v = none := by
  unfold tabOf
  rw [if_pos]
  rw [List.any_eq_true]
  exact ⟨x, h, by simp⟩

theorem tab_free {v : Nat} (h : ∀ x ∈ S, x.v ≠ v) : tabOf S T v = T v := by
  unfold tabOf
  rw [if_neg]
  rw [List.any_eq_true]
  rintro ⟨x, hx, h1⟩
  exact h x hx (by simpa using h1)

theorem tab_some {v : Nat} {t} (h : tabOf S T v = some t) : T v = some t := by
  unfold tabOf at h
  split at h
  · cases h
  · exact h

/-- A shared function which refers to a function around it, other than itself,
    refers to a shared function. -/
def Nested (R : List Use) (T : Nat → Option (Nat × Nat × E)) (share : Nat → Bool) : Prop :=
  ∀ x ∈ R, ∀ G, funOf T x.v = some G → G ∈ x.st → ∀ F ∈ x.st.take x.i, F ≠ G →
    share F = true → share G = true

theorem loadConst_eq {s : St} {F : Nat} : loadConst s F = true ↔ s.defs F = 0 ∧ s.binds F ≤ s.selfs F := by
  unfold loadConst
  by_cases h1 : s.defs F = 0 <;> by_cases h2 : s.binds F > s.selfs F <;> simp [h1, h2] <;> omega

section
variable {s : St} (hi : Inv R S (funOf T) s) (ho : ∀ F, s.opn F = false)

include hi ho in
theorem flag_shared {x : Use} (hx : x ∈ R) (hf : s.flag x.r = true) :
    Shared (loadConst s) (tabOf S T) x.v := by
  obtain ⟨a1, a2, F, a3, a4, a5, a6⟩ := hi.a x hx hf
  obtain ⟨b1, b2⟩ := hi.d _ F a3
  obtain ⟨p, b, hT⟩ := funOf_some b1
  exact ⟨F, p, b, by rw [tab_free (hi.e _ a2)]; exact hT, loadConst_eq.2 ⟨b2, a6 (ho F)⟩⟩

include hi ho in
theorem fn_shared (hN : Nested R T (loadConst s)) {Γ st F p b} (h : CtxE R S T C Γ st (.fn F p b))
    (hs : Scoped Γ (.fn F p b)) (hsh : loadConst s F = true) (i v : Nat)
    (hu : (i, v) ∈ lower (uses s.flag b)) :
    Shared (loadConst s) (tabOf S T) v ∧ v ∈ Γ.getD i [] := by
  obtain ⟨d1, d2⟩ := loadConst_eq.1 hsh
  have hS := hi.b F (ho F) d1 d2
  rw [mem_lower] at hu
  refine ⟨?_, by simpa using uses_vis s.flag b _ i v hs hu⟩
  rcases uses_cross s.flag b (F :: st) (i + 1) v hu with ⟨x, hx, h1, h2, pre, h3, h4⟩ | ⟨x, hx, h1, pre, h3, h4⟩
  · have hm : F ∈ x.st.take x.i := by
      rw [h3, h4, List.take_append]
      apply List.mem_append_right
      have : pre.length + (i + 1) - pre.length = i + 1 := by omega
      rw [this, List.take_succ_cons]
      exact List.mem_cons_self
    have hxR := h.rIn x hx
    rcases hS.1 x hxR hm with h5 | ⟨h5, G, h6, h7⟩
    · rw [h2] at h5; cases h5
    · obtain ⟨b1, b2⟩ := hi.d _ G h6
      obtain ⟨q, c, hT⟩ := funOf_some b1
      rw [← h1]
      refine ⟨G, q, c, by rw [tab_free (hi.e _ h5)]; exact hT, ?_⟩
      by_cases hFG : F = G
      · subst hFG; exact hsh
      · exact hN x hxR G b1 h7 F hm hFG hsh
  · have hm : F ∈ x.st.take x.i := by
      rw [h3, h4, List.take_append]
      apply List.mem_append_right
      have : pre.length + (i + 1) - pre.length = i + 1 := by omega
      rw [this, List.take_succ_cons]
      exact List.mem_cons_self
    exact absurd hm (hS.2 x (h.sIn x hx))

include hi ho in
/-- The conditions of the proof about executions hold. -/
theorem good_of_ctx (hN : Nested R T (loadConst s)) : ∀ (e : E) (Γ : List (List Nat)) (st : List Nat),
    CtxE R S T C Γ st e → Scoped Γ e → WF R S (funOf T) st e →
    Good (loadConst s) s.flag (tabOf S T) (fun F => (C F).getD (.num 0)) Γ e := by
  have fnGood : ∀ {Γ st F p b}, CtxE R S T C Γ st (.fn F p b) → Scoped Γ (.fn F p b) →
      Good (loadConst s) s.flag (tabOf S T) (fun F => (C F).getD (.num 0)) ([p] :: Γ) b →
      FnGood (loadConst s) s.flag (tabOf S T) (fun F => (C F).getD (.num 0)) Γ F p b
        (Good (loadConst s) s.flag (tabOf S T) (fun F => (C F).getD (.num 0)) ([p] :: Γ) b) := by
    intro Γ st F p b h hs hb
    refine ⟨?_, ?_, hb, fn_shared hi ho hN h hs⟩
    · cases ht : tabOf S T p with
      | none => rfl
      | some t => have := tab_some ht; rw [h.param] at this; cases this
    · show (C F).getD (.num 0) = b
      rw [h.body F List.mem_cons_self, bodyOf, if_pos rfl]; rfl
  intro e
  induction e with
  | num => intro Γ st _ _ _; trivial
  | ref r i v =>
    intro Γ st h hs hw hf
    exact ⟨flag_shared hi ho (x := ⟨st, r, i, v⟩) hw hf, hs⟩
  | set i v e ih =>
    intro Γ st h hs hw
    refine ⟨tab_set (x := ⟨st, i, v⟩) hw.1, ih Γ st ?_ hs.2 hw.2⟩
    refine ⟨h.nF, h.nV, h.fst, h.fR, ?_, ?_, h.vG, h.rIn,
        fun x hx => h.sIn x (List.mem_append_left _ hx), h.decl, h.body, h.leave⟩
    · intro F hF x hx hm
      rcases List.mem_append.1 (h.fS F hF x hx hm) with h2 | h2
      · exact h2
      · rw [List.mem_singleton] at h2
        subst h2
        exact absurd hm (h.fst F hF)
    · intro w hw x hx hxv
      rcases List.mem_append.1 (h.vS w hw x hx hxv) with h2 | h2
      · exact h2
      · rw [List.mem_singleton] at h2
        subst h2
        subst hxv
        exact absurd ⟨i, hs.1⟩ (h.vG _ hw)
  | add a b iha ihb | seq a b iha ihb | whl a b iha ihb | call a b iha ihb =>
    intro Γ st h hs hw
    have h2 : Ctx2 R S T C Γ st a b := h
    exact ⟨iha Γ st (h2.left' hs.2) hs.1 hw.1, ihb Γ st (h2.right hs.1) hs.2 hw.2⟩
  | ite c a b ihc iha ihb =>
    intro Γ st h hs hw
    have h2 : Ctx2 R S T C Γ st c (.seq a b) := h
    have h3 : Ctx2 R S T C Γ st a b := h2.right hs.1
    exact ⟨ihc Γ st (h2.left' hs.2) hs.1 hw.1, iha Γ st (h3.left' hs.2.2) hs.2.1 hw.2.1,
      ihb Γ st (h3.right hs.2.1) hs.2.2 hw.2.2⟩
  | fn F p b ih =>
    intro Γ st h hs hw
    exact fnGood h hs (ih _ _ h.fnBody hs hw.2)
  | letv v e rest ihe ihr =>
    intro Γ st h hs hw
    refine ⟨?_, ihe Γ st (h.letv1 hs.2) hs.1 hw.2.2.2.1, ihr _ st (h.letv2 hs.1) hs.2 hw.2.2.2.2⟩
    intro F p b ht
    have := tab_some ht
    rw [h.letvVal] at this
    cases e with
    | fn G q c => cases this; rfl
    | _ => cases this
  | letf v F p b rest ihb ihr =>
    intro Γ st h hs hw
    have h2 := h.letf2
    have h3 := h2.left' hs.2
    have h4 := h2.right (show Scoped (push v Γ) (.fn F p b) from hs.1)
    refine ⟨?_, fnGood h3 hs.1 (ihb _ _ h3.fnBody hs.1 hw.2.2.2.1), ihr _ st h4 hs.2 hw.2.2.2.2⟩
    rw [tab_free hw.2.1]; exact h.letfVal

end

end

/-- The context of the whole program. -/
theorem ctx_init {P : E} (h : Resolved P) :
    CtxE (refsOf [] P) (setsOf [] P) (declOf P) (bodyOf P) [[]] [] P := by
  refine ⟨h.funs, h.vars, fun _ _ => by simp, fun _ _ _ hx _ => hx, fun _ _ _ hx _ => hx,
    fun _ _ _ hx _ => hx, ?_, fun _ hx => hx, fun _ hx => hx, fun _ _ => rfl, fun _ _ => rfl, ?_⟩
  · rintro v _ ⟨j, hj⟩
    cases j <;> simp at hj
  · intro j w F p b _ _ hF; cases hF

theorem wf_init {P : E} (h : Resolved P) :
    WF (refsOf [] P) (setsOf [] P) (funOf (declOf P)) [] P ∧ Glob (refsOf [] P) (funOf (declOf P)) := by
  obtain ⟨a, b⟩ := wf_of_ctx P [[]] [] (ctx_init h) h.scopes h.consts
  refine ⟨a, ?_, b⟩
  have := h.nodes
  intro x hx y hy hr
  exact inj_of_nodup this hx hy hr

end Verif.Clos
