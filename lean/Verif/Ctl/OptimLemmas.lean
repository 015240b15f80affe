import Verif.Ctl.Optim
import Verif.Ctl.Count

/-
What the optimizer leaves behaves as before, and what it takes for terminal never runs to its end.
-/
namespace Verif.Ctl

variable {σ V : Type}

/-! ### Jumps -/

theorem loopW_jump (S : Sem σ V) (cond : σ → Res σ V Bool) (body : σ → Option (Out V × σ)) (k : Kind) (m : Nat) (s s' : σ)
    (h : loopW S cond body m s = some (.jump k, s')) : k = .fall ∧ ∃ t t', body t = some (.jump k, t') := by
  induction m generalizing s with
  | zero => simp [loopW] at h
  | succ m ih =>
    simp only [loopW] at h
    split at h
    · simp at h
    · simp at h
    · split at h
      · simp at h
      · exact ih _ h
      · exact ih _ h
      · simp at h
      · rename_i o t' h1 h2 h3 hb
        simp at h
        obtain ⟨rfl, rfl⟩ := h
        refine ⟨?_, _, _, hb⟩
        cases k <;> simp_all

theorem loopR_jump (S : Sem σ V) (cond : σ → Res σ V Bool) (body : σ → Option (Out V × σ)) (k : Kind) (m : Nat) (s s' : σ)
    (h : loopR S cond body m s = some (.jump k, s')) : k = .fall ∧ ∃ t t', body t = some (.jump k, t') := by
  induction m generalizing s with
  | zero => simp [loopR] at h
  | succ m ih =>
    simp only [loopR] at h
    split at h
    · simp at h
    · simp at h
    · rename_i hb
      simp at h
      exact ⟨h.1.symm, _, _, h.1 ▸ hb⟩
    · simp at h
    · simp at h
    · split at h
      · simp at h
      · simp at h
      · exact ih _ h

mutual
/-- A statement ends with a jump only if it has one. -/
theorem exec_jump (S : Sem σ V) (n : Nat) (k : Kind) : (s : Stmt) → ∀ env m m', exec S n s env m = some (.jump k, m') → Leaves k s = true
  | .skip, env, m, m', h => by simp [exec] at h
  | .act i, env, m, m', h => by simp only [exec] at h; split at h <;> simp at h
  | .seq a b, env, m, m', h => by
    simp only [exec] at h
    simp only [Leaves, Bool.or_eq_true]
    split at h
    · exact .inr (exec_jump S n k b _ _ _ h)
    · exact .inl (exec_jump S n k a _ _ _ h)
  | .ite c t, env, m, m', h => by
    simp only [exec] at h
    split at h
    · simp at h
    · exact exec_jump S n k t _ _ _ h
    · simp at h
  | .itee c t e, env, m, m', h => by
    simp only [exec] at h
    simp only [Leaves, Bool.or_eq_true]
    split at h
    · simp at h
    · exact .inl (exec_jump S n k t _ _ _ h)
    · exact .inr (exec_jump S n k e _ _ _ h)
  | .while c b, env, m, m', h => by
    simp only [exec] at h
    obtain ⟨rfl, t, t', hb⟩ := loopW_jump _ _ _ _ _ _ _ h
    simp [Leaves, exec_jump S n _ b _ _ _ hb]
  | .repeat b c, env, m, m', h => by
    simp only [exec] at h
    obtain ⟨rfl, t, t', hb⟩ := loopR_jump _ _ _ _ _ _ _ h
    simp [Leaves, exec_jump S n _ b _ _ _ hb]
  | .forIn i j b, env, m, m', h => by
    simp only [exec] at h
    split at h
    · simp at h
    · obtain ⟨rfl, t, t', hb⟩ := loopW_jump _ _ _ _ _ _ _ h
      simp [Leaves, exec_jump S n _ b _ _ _ hb]
  | .switch i cs, env, m, m', h => by
    simp only [exec] at h
    simp only [Leaves, Bool.and_eq_true, beq_iff_eq]
    split at h
    · simp at h
    · split at h
      · simp at h
      · exact execAt_jump S n k cs _ _ _ _ h
      · split at h
        · exact execAt_jump S n k cs _ _ _ _ h
        · simp at h
  | .jump j, env, m, m', h => by simp [exec] at h; simp [Leaves, h.1]
  | .ret i, env, m, m', h => by simp only [exec] at h; split at h <;> simp at h
  | .throw i, env, m, m', h => by simp only [exec] at h; split at h <;> simp at h
  | .assert c i, env, m, m', h => by
    simp only [exec] at h
    split at h
    · simp at h
    · simp at h
    · split at h <;> simp at h
  | .tryCatch b f, env, m, m', h => by
    simp only [exec] at h
    simp only [Leaves, Bool.or_eq_true]
    split at h
    · exact .inr (exec_jump S n k f _ _ _ h)
    · exact .inl (exec_jump S n k b _ _ _ h)
  | .tryDefer b f, env, m, m', h => by
    simp only [exec] at h
    simp only [Leaves, Bool.or_eq_true]
    split at h
    · simp at h
    · rename_i hb
      split at h
      · simp at h
        exact .inl (exec_jump S n k b _ _ _ (h.1 ▸ hb))
      · exact .inr (exec_jump S n k f _ _ _ h)

theorem execAt_jump (S : Sem σ V) (n : Nat) (k : Kind) : (cs : Cases) → ∀ i env m m', execAt S n cs i env m = some (.jump k, m') →
    k = .cont ∧ LeavesCs k cs = true
  | .nil, i, env, m, m', h => by simp [execAt] at h
  | .cons t b ft rest, i + 1, env, m, m', h => by
    simp only [execAt] at h
    have := execAt_jump S n k rest _ _ _ _ h
    exact ⟨this.1, by simp [LeavesCs, this.2]⟩
  | .cons t b ft rest, 0, env, m, m', h => by
    simp only [execAt] at h
    simp only [LeavesCs, Bool.or_eq_true]
    split at h
    · simp at h
    · split at h
      · have := execAt_jump S n k rest _ _ _ _ h
        exact ⟨this.1, .inr this.2⟩
      · simp at h
    · have := execAt_jump S n k rest _ _ _ _ h
      exact ⟨this.1, .inr this.2⟩
    · simp at h
    · rename_i o t' h1 h2 h3 hb
      simp at h
      obtain ⟨rfl, rfl⟩ := h
      refine ⟨?_, .inl (exec_jump S n k b _ _ _ hb)⟩
      cases k <;> simp_all
end

mutual
/-- A jump which leaves a statement is allowed there. -/
theorem leaves_placed (k : Kind) : (s : Stmt) → ∀ a, Placed a s → Leaves k s = true → a k = true
  | .skip, a, _, h => by simp [Leaves] at h
  | .act i, a, _, h => by simp [Leaves] at h
  | .seq x y, a, hp, h => by
    simp only [Leaves, Bool.or_eq_true] at h
    exact h.elim (leaves_placed k x a hp.1) (leaves_placed k y a hp.2)
  | .ite c t, a, hp, h => leaves_placed k t a hp h
  | .itee c x y, a, hp, h => by
    simp only [Leaves, Bool.or_eq_true] at h
    exact h.elim (leaves_placed k x a hp.1) (leaves_placed k y a hp.2)
  | .while c b, a, hp, h => by
    simp only [Leaves, Bool.and_eq_true, beq_iff_eq] at h
    obtain ⟨rfl, h⟩ := h
    exact leaves_placed .fall b (loopAllow a) hp h
  | .repeat b c, a, hp, h => by
    simp only [Leaves, Bool.and_eq_true, beq_iff_eq] at h
    obtain ⟨rfl, h⟩ := h
    exact leaves_placed .fall b (loopAllow a) hp h
  | .forIn i j b, a, hp, h => by
    simp only [Leaves, Bool.and_eq_true, beq_iff_eq] at h
    obtain ⟨rfl, h⟩ := h
    exact leaves_placed .fall b (loopAllow a) hp h
  | .switch i cs, a, hp, h => by
    simp only [Leaves, Bool.and_eq_true, beq_iff_eq] at h
    obtain ⟨rfl, h⟩ := h
    exact leavesCs_placed cs _ hp h
  | .jump j, a, hp, h => by
    simp only [Leaves, beq_iff_eq] at h
    exact h ▸ hp
  | .ret i, a, _, h => by simp [Leaves] at h
  | .throw i, a, _, h => by simp [Leaves] at h
  | .assert c i, a, _, h => by simp [Leaves] at h
  | .tryCatch x y, a, hp, h => by
    simp only [Leaves, Bool.or_eq_true] at h
    exact h.elim (leaves_placed k x a hp.1) (leaves_placed k y a hp.2)
  | .tryDefer x y, a, hp, h => by
    simp only [Leaves, Bool.or_eq_true] at h
    exact h.elim (leaves_placed k x a hp.1) (leaves_placed k y a hp.2)

theorem leavesCs_placed : (cs : Cases) → ∀ a, PlacedCases a cs → LeavesCs .cont cs = true → a .cont = true
  | .nil, a, _, h => by simp [LeavesCs] at h
  | .cons t b ft rest, a, hp, h => by
    simp only [LeavesCs, Bool.or_eq_true] at h
    exact h.elim (fun h => leaves_placed .cont b (caseAllow a rest.isNil) hp.1 h) (leavesCs_placed rest a hp.2)
end

/-! ### Conditions -/

theorem truth_eval {S : Sem σ V} {c : Cond} (hk : Known S c) {b : Bool} (h : truth c = some b) (env : List V) (s : σ) :
    evalC S env c s = .ok b s := by
  cases c with
  | leaf i known =>
    simp only [truth] at h
    subst h
    obtain ⟨v, hv, ht⟩ := hk env s
    simp [evalC, hv, ht]
  | _ => simp [truth] at h

/-! ### Loops -/

theorem loopW_true_not_normal (S : Sem σ V) (cond : σ → Res σ V Bool) (body : σ → Option (Out V × σ)) (hc : ∀ s, cond s = .ok true s)
    (hb : ∀ s s', body s ≠ some (.jump .brk, s')) (m : Nat) (s s' : σ) : loopW S cond body m s ≠ some (.normal, s') := by
  induction m generalizing s with
  | zero => simp [loopW]
  | succ m ih =>
    simp only [loopW, hc]
    split
    · simp
    · exact ih _
    · exact ih _
    · rename_i h; exact absurd h (hb _ _)
    · rename_i o t' h1 h2 h3 h
      intro h'
      simp at h'
      simp_all

theorem loopW_congr (S : Sem σ V) (cond : σ → Res σ V Bool) (body body' : σ → Option (Out V × σ)) (hb : ∀ s, body s = body' s) (m : Nat) (s : σ) :
    loopW S cond body m s = loopW S cond body' m s := by
  rw [funext hb]

theorem loopW_false (S : Sem σ V) (cond : σ → Res σ V Bool) (body body' : σ → Option (Out V × σ)) (hc : ∀ s, cond s = .ok false s) (m : Nat) (s : σ) :
    loopW S cond body m s = loopW S cond body' m s := by
  cases m <;> simp [loopW, hc]

/-- A body which neither runs to its end nor ends with `continue`: the condition does not matter. -/
theorem loopR_once (S : Sem σ V) (cond cond' : σ → Res σ V Bool) (body : σ → Option (Out V × σ)) (h1 : ∀ s s', body s ≠ some (.normal, s'))
    (h2 : ∀ s s', body s ≠ some (.jump .cont, s')) (m : Nat) (s : σ) : loopR S cond body m s = loopR S cond' body m s := by
  cases m with
  | zero => rfl
  | succ m =>
    simp only [loopR]
    split <;> try rfl
    rename_i o t' g1 g2 g3 g4 h
    exfalso
    cases o with
    | normal => exact h1 _ _ h
    | jump k => cases k with
      | brk => exact g1 rfl
      | cont => exact h2 _ _ h
      | fall => exact g2 rfl
    | ret v => exact g3 _ rfl
    | thr v => exact g4 _ rfl

theorem loopR_not_normal (S : Sem σ V) (cond : σ → Res σ V Bool) (body : σ → Option (Out V × σ)) (h1 : ∀ s s', body s ≠ some (.normal, s'))
    (h2 : ∀ s s', body s ≠ some (.jump .cont, s')) (h3 : ∀ s s', body s ≠ some (.jump .brk, s')) (m : Nat) (s s' : σ) :
    loopR S cond body m s ≠ some (.normal, s') := by
  cases m with
  | zero => simp [loopR]
  | succ m =>
    simp only [loopR]
    split
    · simp
    · rename_i h; exact absurd h (h3 _ _)
    · simp
    · simp
    · simp
    · rename_i o t' g1 g2 g3 g4 h
      exfalso
      cases o with
      | normal => exact h1 _ _ h
      | jump k => cases k with
        | brk => exact g1 rfl
        | cont => exact h2 _ _ h
        | fall => exact g2 rfl
      | ret v => exact g3 _ rfl
      | thr v => exact g4 _ rfl

/-! ### Cases -/

def Cases.size : Cases → Nat
  | .nil => 0
  | .cons _ _ _ rest => rest.size + 1

theorem pick_opt (S : Sem σ V) (ff : Nat) (env : List V) (v : V) : (cs : Cases) → ∀ k s, pick S env v (optCases ff cs).1 k s = pick S env v cs k s
  | .nil, k, s => by simp [optCases]
  | .cons none b ft rest, k, s => by simp only [optCases, pick]; exact pick_opt S ff env v rest _ _
  | .cons (some i) b ft rest, k, s => by
    simp only [optCases, pick]
    split <;> first | rfl | exact pick_opt S ff env v rest _ _

theorem dflt_opt (ff : Nat) : (cs : Cases) → ∀ k, dflt (optCases ff cs).1 k = dflt cs k
  | .nil, k => by simp [optCases]
  | .cons none b ft rest, k => by simp [optCases, dflt]
  | .cons (some i) b ft rest, k => by simp only [optCases, dflt]; exact dflt_opt ff rest _

theorem pick_lt (S : Sem σ V) (env : List V) (v : V) : (cs : Cases) → ∀ k s j s', pick S env v cs k s = .ok (some j) s' → j < k + cs.size
  | .nil, k, s, j, s', h => by simp [pick] at h
  | .cons none b ft rest, k, s, j, s', h => by
    have := pick_lt S env v rest (k + 1) s j s' h
    simp only [Cases.size]; omega
  | .cons (some i) b ft rest, k, s, j, s', h => by
    simp only [pick] at h
    simp only [Cases.size]
    split at h
    · simp at h
    · simp at h; omega
    · have := pick_lt S env v rest (k + 1) _ j s' h
      omega

theorem dflt_lt : (cs : Cases) → ∀ k j, dflt cs k = some j → j < k + cs.size
  | .nil, k, j, h => by simp [dflt] at h
  | .cons none b ft rest, k, j, h => by simp [dflt] at h; simp only [Cases.size]; omega
  | .cons (some i) b ft rest, k, j, h => by
    have := dflt_lt rest (k + 1) j h
    simp only [Cases.size]; omega

/-! ### The optimizer -/

/-- The result of the optimizer does the same, and if it calls `s` terminal then `s` does not run to its end. -/
def OptOk (S : Sem σ V) (ff : Nat) (s : Stmt) : Prop :=
  (∀ n env m, exec S n (opt ff s).1 env m = exec S n s env m) ∧
  ((opt ff s).2.any = true → ∀ n env m m', exec S n s env m ≠ some (.normal, m'))

def OptCsOk (S : Sem σ V) (ff : Nat) (cs : Cases) : Prop :=
  (∀ n k env m, execAt S n (optCases ff cs).1 k env m = execAt S n cs k env m) ∧
  ((optCases ff cs).2.1 = true → ∀ n k env m m', k < cs.size → execAt S n cs k env m ≠ some (.normal, m'))

mutual
theorem opt_ok (S : Sem σ V) (ff : Nat) : (s : Stmt) → ∀ a, KnownS S s → Placed a s → Counted ff s → OptOk S ff s
  | .skip, a, hk, hp, hc => ⟨fun _ _ _ => rfl, fun h => by simp [opt, Term.any, Term.none] at h⟩
  | .act i, a, hk, hp, hc => ⟨fun _ _ _ => rfl, fun h => by simp [opt, Term.any, Term.none] at h⟩
  | .assert c i, a, hk, hp, hc => ⟨fun _ _ _ => rfl, fun h => by simp [opt, Term.any, Term.none] at h⟩
  | .jump .brk, a, hk, hp, hc => ⟨fun _ _ _ => rfl, fun _ n env m m' => by simp [exec]⟩
  | .jump .cont, a, hk, hp, hc => ⟨fun _ _ _ => rfl, fun _ n env m m' => by simp [exec]⟩
  | .jump .fall, a, hk, hp, hc => ⟨fun _ _ _ => rfl, fun _ n env m m' => by simp [exec]⟩
  | .ret i, a, hk, hp, hc => ⟨fun _ _ _ => rfl, fun _ n env m m' => by simp only [exec]; split <;> simp⟩
  | .throw i, a, hk, hp, hc => ⟨fun _ _ _ => rfl, fun _ n env m m' => by simp only [exec]; split <;> simp⟩
  | .seq x y, a, hk, hp, hc => by
    obtain ⟨ex, tx⟩ := opt_ok S ff x a hk.1 hp.1 hc.1
    obtain ⟨ey, ty⟩ := opt_ok S ff y a hk.2 hp.2 hc.2
    unfold OptOk
    by_cases ht : (opt ff x).2.any = true
    · simp only [opt, if_pos ht]
      have tx := tx ht
      refine ⟨fun n env m => ?_, fun _ n env m m' => ?_⟩
      · rw [ex]
        simp only [exec]
        split
        · rename_i h; exact absurd h (tx _ _ _ _)
        · rfl
      · simp only [exec]
        split
        · rename_i h; exact absurd h (tx _ _ _ _)
        · exact tx _ _ _ _
    · simp only [opt, if_neg ht]
      refine ⟨fun n env m => ?_, fun ht n env m m' => ?_⟩
      · simp only [exec, ex, ey]
      · simp only [exec]
        split
        · exact ty ht _ _ _ _
        · rename_i h; exact h _
  | .ite c t, a, hk, hp, hc => by
    obtain ⟨et, tt⟩ := opt_ok S ff t a hk.2 hp hc
    unfold OptOk
    simp only [opt]
    split
    · rename_i h
      have hv := truth_eval hk.1 h
      refine ⟨fun n env m => ?_, fun ht n env m m' => ?_⟩
      · simp only [exec, hv, et]
      · simp only [exec, hv]; exact tt ht _ _ _ _
    · rename_i h
      have hv := truth_eval hk.1 h
      exact ⟨fun n env m => by simp only [exec, hv], fun h => by simp [Term.any, Term.none] at h⟩
    · exact ⟨fun n env m => by simp only [exec, et], fun h => by simp [Term.any, Term.none] at h⟩
  | .itee c t e, a, hk, hp, hc => by
    obtain ⟨et, tt⟩ := opt_ok S ff t a hk.2.1 hp.1 hc.1
    obtain ⟨ee, te⟩ := opt_ok S ff e a hk.2.2 hp.2 hc.2
    unfold OptOk
    simp only [opt]
    split
    · rename_i h
      have hv := truth_eval hk.1 h
      refine ⟨fun n env m => ?_, fun ht n env m m' => ?_⟩
      · simp only [exec, hv, et]
      · simp only [exec, hv]; exact tt ht _ _ _ _
    · rename_i h
      have hv := truth_eval hk.1 h
      refine ⟨fun n env m => ?_, fun ht n env m m' => ?_⟩
      · simp only [exec, hv, ee]
      · simp only [exec, hv]; exact te ht _ _ _ _
    · refine ⟨fun n env m => by simp only [exec, et, ee], fun h n env m m' => ?_⟩
      split at h
      · rename_i hh
        simp only [Bool.and_eq_true] at hh
        simp only [exec]
        split
        · simp
        · exact tt hh.1 _ _ _ _
        · exact te hh.2 _ _ _ _
      · simp [Term.any, Term.none] at h
  | .while c b, a, hk, hp, hc => by
    obtain ⟨eb, tb⟩ := opt_ok S ff b _ hk.2 hp hc.1
    unfold OptOk
    simp only [opt]
    split
    · rename_i h
      have hv := truth_eval hk.1 h
      exact ⟨fun n env m => by simp only [exec]; exact loopW_false _ _ _ _ (hv env) _ _, fun h => by simp [Term.any, Term.none] at h⟩
    · rename_i h
      have hv := truth_eval hk.1 h
      refine ⟨fun n env m => by simp only [exec, eb], fun ht n env m m' => ?_⟩
      simp only [exec]
      refine loopW_true_not_normal _ _ _ (hv env) (fun s s' hb => ?_) _ _ _
      have hs := hc.2 h (exec_jump S n _ b _ _ _ hb)
      split at ht
      · simp [Term.any, Term.none] at ht
      · rename_i hbrk
        rcases hs with hs | hs
        · simp [hs] at ht
        · exact hbrk hs
    · exact ⟨fun n env m => by simp only [exec, eb], fun h => by simp [Term.any, Term.none] at h⟩
  | .repeat b c, a, hk, hp, hc => by
    obtain ⟨eb, tb⟩ := opt_ok S ff b _ hk.2 hp hc.1
    obtain ⟨-, hbr, hco⟩ := hc
    unfold OptOk
    simp only [opt]
    refine ⟨fun n env m => ?_, fun ht n env m m' => ?_⟩
    · simp only [exec, eb]
      split
      · rename_i hany
        refine loopR_once _ _ _ _ (fun s s' => tb hany _ _ _ _) (fun s s' h => ?_) _ _
        have := hco (exec_jump S n _ b _ _ _ h)
        simp [this] at hany
      · rfl
    · split at ht
      · simp [Term.any, Term.none] at ht
      · rename_i hbrk
        simp only [exec]
        refine loopR_not_normal _ _ _ (fun s s' => tb ht _ _ _ _) (fun s s' h => ?_) (fun s s' h => ?_) _ _ _
        · have := hco (exec_jump S n _ b _ _ _ h)
          simp [this] at ht
        · rcases hbr (exec_jump S n _ b _ _ _ h) with hs | hs
          · simp [hs] at ht
          · exact hbrk hs
  | .forIn i j b, a, hk, hp, hc => by
    obtain ⟨eb, tb⟩ := opt_ok S ff b _ hk hp hc
    unfold OptOk
    simp only [opt]
    exact ⟨fun n env m => by simp only [exec, eb], fun h => by simp [Term.any, Term.none] at h⟩
  | .switch i cs, a, hk, hp, hc => by
    obtain ⟨ec, tc⟩ := optCases_ok S ff cs a hk hp hc
    unfold OptOk
    simp only [opt]
    refine ⟨fun n env m => by simp only [exec, pick_opt, dflt_opt, ec], fun ht n env m m' => ?_⟩
    split at ht
    · rename_i hh
      simp only [Bool.and_eq_true] at hh
      simp only [exec]
      split
      · simp
      · split
        · simp
        · rename_i hpk
          have := pick_lt _ _ _ _ _ _ _ _ hpk
          exact tc hh.1 _ _ _ _ _ (by omega)
        · split
          · rename_i hd
            have := dflt_lt _ _ _ hd
            exact tc hh.1 _ _ _ _ _ (by omega)
          · rename_i hd
            simp [hd] at hh
    · simp [Term.any, Term.none] at ht
  | .tryCatch b h, a, hk, hp, hc => by
    obtain ⟨eb, tb⟩ := opt_ok S ff b a hk.1 hp.1 hc.1
    obtain ⟨eh, th⟩ := opt_ok S ff h a hk.2 hp.2 hc.2
    unfold OptOk
    simp only [opt]
    refine ⟨fun n env m => by simp only [exec, eb, eh], fun ht n env m m' => ?_⟩
    split at ht
    · rename_i hh
      simp only [Bool.and_eq_true] at hh
      simp only [exec]
      split
      · exact th hh.2 _ _ _ _
      · exact tb hh.1 _ _ _ _
    · simp [Term.any, Term.none] at ht
  | .tryDefer b f, a, hk, hp, hc => by
    obtain ⟨eb, tb⟩ := opt_ok S ff b a hk.1 hp.1 hc.1
    obtain ⟨ef, tf⟩ := opt_ok S ff f a hk.2 hp.2 hc.2
    unfold OptOk
    simp only [opt]
    refine ⟨fun n env m => by simp only [exec, eb, ef], fun ht n env m m' => ?_⟩
    simp only [exec]
    split
    · simp
    · split
      · rename_i h; exact absurd h (tf ht _ _ _ _)
      · exact tf ht _ _ _ _

theorem optCases_ok (S : Sem σ V) (ff : Nat) : (cs : Cases) → ∀ a, KnownCs S cs → PlacedCases a cs → CountedCs ff cs → OptCsOk S ff cs
  | .nil, a, hk, hp, hc => ⟨fun _ _ _ _ => by simp [optCases], fun _ n k env m m' h => by simp [Cases.size] at h⟩
  | .cons test b ft rest, a, hk, hp, hc => by
    obtain ⟨eb, tb⟩ := opt_ok S ff b _ hk.1 hp.1 hc.1.1
    obtain ⟨er, tr⟩ := optCases_ok S ff rest a hk.2 hp.2 hc.2
    unfold OptCsOk
    simp only [optCases]
    refine ⟨fun n k env m => ?_, fun ht n k env m m' hlt => ?_⟩
    · cases k with
      | succ k => simp only [execAt, er]
      | zero =>
        simp only [execAt, eb, er]
        by_cases hany : (opt ff b).2.any = true
        · have := tb hany
          split <;> first | rfl | skip
          rename_i h
          exact absurd h (this _ _ _ _)
        · simp [hany]
    · simp only [Bool.and_eq_true] at ht
      simp only [Cases.size] at hlt
      cases k with
      | succ k => simp only [execAt]; exact tr ht.2 _ _ _ _ _ (by omega)
      | zero =>
        have hany := ht.1
        split at hany
        · simp [Term.any, Term.none] at hany
        rename_i hbrk
        simp only [execAt]
        split
        · simp
        · rename_i h; exact absurd h (tb hany _ _ _ _)
        · rename_i h
          have hl := leaves_placed _ b _ hp.1 (exec_jump S n _ b _ _ _ h)
          cases rest with
          | nil => simp [caseAllow, Cases.isNil] at hl
          | cons t b' ft' rest' => exact tr ht.2 _ _ _ _ _ (by simp [Cases.size])
        · rename_i h
          rcases hc.1.2 (exec_jump S n _ b _ _ _ h) with hs | hs
          · simp [hs] at hany
          · exact absurd hs hbrk
        · rename_i o t' g1 g2 g3 h
          intro h'
          simp at h'
          simp_all
end

end Verif.Ctl
