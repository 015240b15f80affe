import Verif.Ctl.Cond

/-
C56: the jump generated for a condition is made exactly if the condition has the value tested for.

The value of a condition is `evalC`: operands from left to right, no further than needed.
-/
namespace Verif.Props

open Verif.Ctl

variable {σ V : Type}

/-- The code which `gen_cond_jump` generates for `c`, anywhere in a program in which its jumps lead to `F`: it gets to `F` if the value is
`op`, and to its end otherwise, with the effects of evaluating `c`; no other registers are changed; exceptions are raised as in `c`. -/
def CondRight (S : Sem σ V) (opt : Bool) (c : Cond) (op : Bool) : Prop :=
  ∀ (P : Prog) (x : Ctx) (st : St) (F : Nat), x.opt = opt → (∀ q ∈ x.env, q < x.d) →
    (genCond x c op st).1.code <+: P.code →
    (∀ e ∈ (genCond x c op st).2, P.tgt e = some F) →
    (∀ et ∈ (genCond x c op st).1.log, P.tgt et.1 = some et.2) →
    ∀ cf : Cfg σ V, cf.pc = st.pc →
      Jumps S P x.d cf op F (genCond x c op st).1.pc (evalC S (x.env.map cf.regs) c cf.mem)

/-- The full claim. -/
def C56_full : Prop := ∀ (σ V : Type) (S : Sem σ V) (opt : Bool) (c : Cond) (op : Bool), Known S c → CondRight S opt c op

/-- The jumps are right for all conditions in which a left operand of `||` has no `&&` and a left operand of `&&` has no `||` (where `!`
exchanges them).  Missing: all other conditions, for which the claim is false, see `C56_exact`. -/
theorem C56_conditions_partial (S : Sem σ V) (opt : Bool) (c : Cond) (op : Bool) (hk : Known S c) (hs : Straight c) :
    CondRight S opt c op := by
  intro P x st F _ henv hP hJ hlog cf hpc
  obtain ⟨cs, m, J, N, h, hp, hr⟩ := genCond_spec S P x henv c hk op st
  rw [h] at hP hJ hlog ⊢
  have := hr F hJ (fun e he => hlog (e, _) (by simp; exact .inr he)) hP cf hpc
  simpa [St.pc] using this.jumps (route_right S _ c op cf.mem hs)

/-- Expressions whose values are not known to the compiler. -/
def Plain : Cond → Prop
  | .leaf _ known => known = none
  | .not c => Plain c
  | .or a b => Plain a ∧ Plain b
  | .and a b => Plain a ∧ Plain b

theorem Plain.known {c : Cond} (S : Sem σ V) (h : Plain c) : Known S c := by
  induction c with
  | leaf i known => rw [show known = none from h]; trivial
  | not c ih => exact ih h
  | or a b iha ihb => exact ⟨iha h.1, ihb h.2⟩
  | and a b iha ihb => exact ⟨iha h.1, ihb h.2⟩

theorem reach_end_unique {S : Sem σ V} {P : Prog} {a b c : Cfg σ V} {j k : Nat} (hb : Reach S P j a b) (hc : Reach S P k a c)
    (sb : ∀ d, step S P b ≠ .run d) (sc : ∀ d, step S P c ≠ .run d) : b = c := by
  induction hb generalizing k with
  | refl =>
    cases hc with
    | refl => rfl
    | cons h _ => exact absurd h (sb _)
  | cons h _ ih =>
    cases hc with
    | refl => exact absurd h (sc _)
    | cons h' hc =>
      rw [h] at h'
      cases h'
      exact ih hc sb

/-- For every other condition there are truth values of its operands for which the jump is wrong: with and without optimization, for both
kinds of jumps. -/
theorem C56_exact (c : Cond) (hp : Plain c) (hn : c.leaves.Nodup) (hs : ¬ Straight c) (opt op : Bool) :
    ∃ ρ : Nat → Bool, ¬ CondRight (pureSem ρ) opt c op := by
  obtain ⟨ρ, hw⟩ := exists_wrong c hn hs op
  refine ⟨ρ, fun hr => hw ?_⟩
  let x : Ctx := { opt := opt }
  let P0 : Prog := ⟨[], fun _ => none⟩
  obtain ⟨cs, m, J, N, h, hperm, -⟩ := genCond_spec (pureSem ρ) P0 x (by simp [x]) c (hp.known _) op {}
  let P : Prog := ⟨cs, fun e => if e ∈ J then some (cs.length + 1) else some cs.length⟩
  obtain ⟨cs', m', J', N', h', hperm', hg⟩ := genCond_spec (pureSem ρ) P x (by simp [x]) c (hp.known _) op {}
  rw [h] at h'
  simp only [Prod.mk.injEq, St.mk.injEq, List.nil_append, and_true, Nat.zero_add, St.pc, List.length_nil] at h'
  obtain ⟨⟨rfl, rfl, hN⟩, rfl⟩ := h'
  have hN : N' = N := by
    have h2 := congrArg (List.map Prod.fst) hN
    simpa [List.map_map, Function.comp_def] using h2.symm
  subst hN
  have hJ : ∀ e ∈ J, P.tgt e = some (cs.length + 1) := fun e he => by simp [P, he]
  have hnd : (J ++ N').Nodup := hperm.nodup_iff.2 List.nodup_range'
  have hNt : ∀ e ∈ N', P.tgt e = some cs.length := fun e he => by
    have : e ∉ J := fun hj => (List.nodup_append.1 hnd).2.2 e hj e he rfl
    simp [P, this]
  let cf : Cfg Unit Bool := ⟨0, fun _ => false, none, ()⟩
  have g := hg (cs.length + 1) hJ (by simpa [St.pc] using hNt) (by simp [P]) cf rfl
  have j := hr P x {} (cs.length + 1) rfl (by simp [x]) (by simp [h, P]) (by simpa [h] using hJ)
    (by simpa [h, St.pc] using hNt) cf rfl
  rw [evalC_pure] at j
  rw [route_pure] at g
  have stuck : ∀ c' : Cfg Unit Bool, cs.length ≤ c'.pc → ∀ d, step (pureSem ρ) P c' ≠ .run d := by
    intro c' hc d
    simp [step, P, List.getElem?_eq_none hc]
  simp only [h, St.pc, List.nil_append, List.length_nil, Nat.zero_add] at j g
  constructor
  · intro hf
    rw [hf] at g
    obtain ⟨k, c1, h1⟩ := g
    by_cases hv : valB ρ c = op
    · exact hv
    · simp only [Jumps, if_neg hv] at j
      obtain ⟨k', c2, h2⟩ := j
      have := reach_end_unique h1.reach h2.reach (stuck _ (by rw [h1.pc]; omega)) (stuck _ (by rw [h2.pc]; omega))
      have := h1.pc.symm.trans ((congrArg Cfg.pc this).trans h2.pc)
      omega
  · intro hv
    simp only [Jumps, if_pos hv] at j
    obtain ⟨k', c2, h2⟩ := j
    cases hf : routeB ρ c op
    · rfl
    · rw [hf] at g
      obtain ⟨k, c1, h1⟩ := g
      have := reach_end_unique h1.reach h2.reach (stuck _ (by rw [h1.pc]; omega)) (stuck _ (by rw [h2.pc]; omega))
      have := h1.pc.symm.trans ((congrArg Cfg.pc this).trans h2.pc)
      omega
    · rw [hf] at g
      obtain ⟨k, c1, h1⟩ := g
      have := reach_end_unique h1.reach h2.reach (stuck _ (by rw [h1.pc]; omega)) (stuck _ (by rw [h2.pc]; omega))
      have := h1.pc.symm.trans ((congrArg Cfg.pc this).trans h2.pc)
      omega

/-- `(a && b) || c` -/
def alternating : Cond := .or (.and (.leaf 0 none) (.leaf 1 none)) (.leaf 2 none)

theorem C56_violated : ¬ C56_full := by
  intro h
  obtain ⟨ρ, hr⟩ := C56_exact alternating (by simp [alternating, Plain]) (by decide) (by decide) true false
  exact hr (h Unit Bool (pureSem ρ) true alternating false (Plain.known _ (by simp [alternating, Plain])))

/-! ### Examples -/

/-- Which way the code of `if (a && b) || c` goes for `a = false`, `c = true`: to the end of the condition's code would be right. -/
example : routeB (fun i => i == 2) alternating false = .far ∧ valB (fun i => i == 2) alternating = true := by decide

/-- `a || (b && c)` and `!(a && b) || c` are straight, `!(a || b) || c` is not. -/
example : Straight (.or (.leaf 0 none) (.and (.leaf 1 none) (.leaf 2 none))) ∧
    Straight (.or (.not (.and (.leaf 0 none) (.leaf 1 none))) (.leaf 2 none)) ∧
    ¬ Straight (.or (.not (.or (.leaf 0 none) (.leaf 1 none))) (.leaf 2 none)) := by decide

end Verif.Props
