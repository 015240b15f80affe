import Verif.Ctl.Lang

/-
The meaning of a statement does not depend on the bound for passes through loops.
-/
namespace Verif.Ctl

variable {σ V : Type} {S : Sem σ V}

theorem loopW_mono {cond : σ → Res σ V Bool} {body body' : σ → Option (Out V × σ)} (hb : ∀ s r, body s = some r → body' s = some r) :
    ∀ (m m' : Nat) (s : σ) (r : Out V × σ), m ≤ m' → loopW S cond body m s = some r → loopW S cond body' m' s = some r
  | 0, _, _, _, _, h => by cases h
  | m + 1, 0, _, _, hm, _ => absurd hm (by omega)
  | m + 1, m' + 1, s, r, hm, h => by
    have ih := fun s r => loopW_mono (cond := cond) hb m m' s r (by omega)
    simp only [loopW] at h ⊢
    cases hc : cond s with
    | exn v s => simpa only [hc] using h
    | ok b s =>
      cases b with
      | false => simpa only [hc] using h
      | true =>
        simp only [hc] at h ⊢
        cases hr : body s with
        | none => simp [hr] at h
        | some q =>
          rw [hb s q hr]
          rw [hr] at h
          rcases q with ⟨_ | (_ | _ | _) | v | v, s⟩ <;> simp only at h ⊢ <;> first | exact ih _ _ h | exact h

theorem loopR_mono {cond : σ → Res σ V Bool} {body body' : σ → Option (Out V × σ)} (hb : ∀ s r, body s = some r → body' s = some r) :
    ∀ (m m' : Nat) (s : σ) (r : Out V × σ), m ≤ m' → loopR S cond body m s = some r → loopR S cond body' m' s = some r
  | 0, _, _, _, _, h => by cases h
  | m + 1, 0, _, _, hm, _ => absurd hm (by omega)
  | m + 1, m' + 1, s, r, hm, h => by
    have ih := fun s r => loopR_mono (cond := cond) hb m m' s r (by omega)
    have hcond : ∀ s, (match cond s with
        | .exn v s => some (.thr (S.wrap v), s)
        | .ok false s => some (.normal, s)
        | .ok true s => loopR S cond body m s) = some r → (match cond s with
        | .exn v s => some (.thr (S.wrap v), s)
        | .ok false s => some (.normal, s)
        | .ok true s => loopR S cond body' m' s) = some r := by
      intro s h
      rcases hc : cond s with ⟨_ | _, s⟩ | ⟨v, s⟩ <;> rw [hc] at h <;> simp only at h ⊢ <;> first | exact ih _ _ h | exact h
    simp only [loopR] at h ⊢
    cases hr : body s with
    | none => simp [hr] at h
    | some q =>
      rw [hb s q hr]
      rw [hr] at h
      rcases q with ⟨_ | (_ | _ | _) | v | v, s⟩ <;> simp only at h ⊢ <;> first | exact hcond _ h | exact h

mutual
theorem exec_mono {n m : Nat} (hnm : n ≤ m) : (b : Stmt) → (env : List V) → (s : σ) → (r : Out V × σ) → exec S n b env s = some r → exec S m b env s = some r
  | .skip, _, _, _, h => h
  | .act _, _, _, _, h => h
  | .seq a b, env, s, r, h => by
    simp only [exec] at h ⊢
    cases ha : exec S n a env s with
    | none => simp [ha] at h
    | some q =>
      rw [exec_mono hnm a env s q ha]
      rw [ha] at h
      rcases q with ⟨_ | k | v | v, s⟩ <;> simp only at h ⊢ <;> first | exact exec_mono hnm b env _ r h | exact h
  | .ite c t, env, s, r, h => by
    simp only [exec] at h ⊢
    rcases hc : evalC S env c s with ⟨_ | _, s⟩ | ⟨v, s⟩ <;> rw [hc] at h <;> simp only at h ⊢ <;> first | exact exec_mono hnm t env _ r h | exact h
  | .itee c t e, env, s, r, h => by
    simp only [exec] at h ⊢
    rcases hc : evalC S env c s with ⟨_ | _, s⟩ | ⟨v, s⟩ <;> rw [hc] at h <;> simp only at h ⊢
    · exact exec_mono hnm e env _ r h
    · exact exec_mono hnm t env _ r h
    · exact h
  | .while c b, env, s, r, h => by
    simp only [exec] at h ⊢
    exact loopW_mono (fun s r => exec_mono hnm b env s r) n m s r hnm h
  | .repeat b c, env, s, r, h => by
    simp only [exec] at h ⊢
    exact loopR_mono (fun s r => exec_mono hnm b env s r) n m s r hnm h
  | .forIn i j b, env, s, r, h => by
    simp only [exec] at h ⊢
    rcases hc : S.expr i env s with ⟨v, s⟩ | ⟨v, s⟩ <;> rw [hc] at h <;> simp only at h ⊢
    · exact loopW_mono (fun s r => exec_mono hnm b env s r) n m _ r hnm h
    · exact h
  | .switch i cs, env, s, r, h => by
    simp only [exec] at h ⊢
    rcases hc : S.expr i env s with ⟨v, s⟩ | ⟨v, s⟩ <;> rw [hc] at h <;> simp only at h ⊢
    · rcases hp : pick S env v cs 0 s with ⟨_ | k, s⟩ | ⟨v, s⟩ <;> rw [hp] at h <;> simp only at h ⊢
      · cases hd : dflt cs 0 with
        | none => rw [hd] at h; exact h
        | some k => rw [hd] at h; exact execAt_mono hnm cs k env _ r h
      · exact execAt_mono hnm cs k env _ r h
      · exact h
    · exact h
  | .jump _, _, _, _, h => h
  | .ret _, _, _, _, h => h
  | .throw _, _, _, _, h => h
  | .assert _ _, _, _, _, h => h
  | .tryCatch b f, env, s, r, h => by
    simp only [exec] at h ⊢
    cases ha : exec S n b env s with
    | none => simp [ha] at h
    | some q =>
      rw [exec_mono hnm b env s q ha]
      rw [ha] at h
      rcases q with ⟨_ | k | v | v, s⟩ <;> simp only at h ⊢ <;> first | exact exec_mono hnm f _ _ r h | exact h
  | .tryDefer b f, env, s, r, h => by
    simp only [exec] at h ⊢
    cases ha : exec S n b env s with
    | none => simp [ha] at h
    | some q =>
      rw [exec_mono hnm b env s q ha]
      rw [ha] at h
      simp only at h ⊢
      cases hf : exec S n f env q.2 with
      | none => simp [hf] at h
      | some q' =>
        rw [exec_mono hnm f env q.2 q' hf]
        rw [hf] at h
        exact h

theorem execAt_mono {n m : Nat} (hnm : n ≤ m) : (cs : Cases) → (k : Nat) → (env : List V) → (s : σ) → (r : Out V × σ) →
    execAt S n cs k env s = some r → execAt S m cs k env s = some r
  | .nil, _, _, _, _, h => h
  | .cons _ _ _ rest, k + 1, env, s, r, h => by
    simp only [execAt] at h ⊢
    exact execAt_mono hnm rest k env s r h
  | .cons _ b ft rest, 0, env, s, r, h => by
    simp only [execAt] at h ⊢
    cases ha : exec S n b env s with
    | none => simp [ha] at h
    | some q =>
      rw [exec_mono hnm b env s q ha]
      rw [ha] at h
      rcases q with ⟨_ | (_ | _ | _) | v | v, s⟩ <;> simp only at h ⊢
      · cases ft with
        | true => exact execAt_mono hnm rest 0 env _ r h
        | false => exact h
      · exact h
      · exact h
      · exact execAt_mono hnm rest 0 env _ r h
      · exact h
      · exact h
end

theorem exec_unique {n m : Nat} {b : Stmt} {env : List V} {s : σ} {o o' : Out V} {s1 s2 : σ} (h : exec S n b env s = some (o, s1))
    (h' : exec S m b env s = some (o', s2)) : o = o' ∧ s1 = s2 := by
  have h1 := exec_mono (Nat.le_max_left n m) b env s _ h
  have h2 := exec_mono (Nat.le_max_right n m) b env s _ h'
  rw [h1] at h2
  cases h2
  exact ⟨rfl, rfl⟩

end Verif.Ctl
