import Verif.Ctl.OptimLemmas

/-
More about the optimizer: a second pass changes nothing, and what the optimizer leaves is still well placed, with handlers in the right
places.  And a simple condition under which the optimizer knows of all jumps.
-/
namespace Verif.Ctl

variable {σ V : Type}

/-! ### A second pass -/

mutual
theorem opt_opt (ff : Nat) : (s : Stmt) → opt ff (opt ff s).1 = opt ff s
  | .skip => rfl
  | .act i => rfl
  | .seq x y => by
    by_cases ht : (opt ff x).2.any = true
    · simp only [opt, if_pos ht]; exact opt_opt ff x
    · simp only [opt, if_neg ht, opt_opt ff x, opt_opt ff y]
  | .ite c t => by
    simp only [opt]
    split
    · exact opt_opt ff t
    · rfl
    · rename_i h
      simp only [opt, h, opt_opt ff t]
  | .itee c t e => by
    simp only [opt]
    split
    · exact opt_opt ff t
    · exact opt_opt ff e
    · rename_i h
      simp only [opt, h, opt_opt ff t, opt_opt ff e]
  | .while c b => by
    simp only [opt]
    split <;> rename_i h <;> simp only [opt, h, opt_opt ff b]
  | .repeat b c => by
    simp only [opt, opt_opt ff b]
    split <;> rfl
  | .forIn i j b => by simp only [opt, opt_opt ff b]
  | .switch i cs => by simp only [opt, optCases_opt ff cs, dflt_opt]
  | .jump .brk => rfl
  | .jump .cont => rfl
  | .jump .fall => rfl
  | .ret i => rfl
  | .throw i => rfl
  | .assert c k => rfl
  | .tryCatch b h => by simp only [opt, opt_opt ff b, opt_opt ff h]
  | .tryDefer b f => by simp only [opt, opt_opt ff b, opt_opt ff f]

theorem optCases_opt (ff : Nat) : (cs : Cases) → optCases ff (optCases ff cs).1 = optCases ff cs
  | .nil => by simp [optCases]
  | .cons test b ft rest => by
    simp only [optCases, opt_opt ff b, optCases_opt ff rest, Bool.and_assoc, Bool.and_self]
end

/-! ### What stays -/

mutual
theorem opt_known {S : Sem σ V} {ff : Nat} (hff : Known S (.leaf ff (some false))) : (s : Stmt) → KnownS S s → KnownS S (opt ff s).1
  | .skip, h => h
  | .act i, h => h
  | .seq x y, h => by
    by_cases ht : (opt ff x).2.any = true
    · simp only [opt, if_pos ht]; exact opt_known hff x h.1
    · simp only [opt, if_neg ht]; exact ⟨opt_known hff x h.1, opt_known hff y h.2⟩
  | .ite c t, h => by
    simp only [opt]
    split
    · exact opt_known hff t h.2
    · trivial
    · exact ⟨h.1, opt_known hff t h.2⟩
  | .itee c t e, h => by
    simp only [opt]
    split
    · exact opt_known hff t h.2.1
    · exact opt_known hff e h.2.2
    · exact ⟨h.1, opt_known hff t h.2.1, opt_known hff e h.2.2⟩
  | .while c b, h => by
    simp only [opt]
    split
    · exact ⟨h.1, trivial⟩
    · exact ⟨h.1, opt_known hff b h.2⟩
    · exact ⟨h.1, opt_known hff b h.2⟩
  | .repeat b c, h => by
    simp only [opt]
    refine ⟨?_, opt_known hff b h.2⟩
    split
    · exact hff
    · exact h.1
  | .forIn i j b, h => opt_known hff b h
  | .switch i cs, h => optCases_known hff cs h
  | .jump .brk, h => h
  | .jump .cont, h => h
  | .jump .fall, h => h
  | .ret i, h => h
  | .throw i, h => h
  | .assert c k, h => h
  | .tryCatch b f, h => ⟨opt_known hff b h.1, opt_known hff f h.2⟩
  | .tryDefer b f, h => ⟨opt_known hff b h.1, opt_known hff f h.2⟩

theorem optCases_known {S : Sem σ V} {ff : Nat} (hff : Known S (.leaf ff (some false))) : (cs : Cases) → KnownCs S cs → KnownCs S (optCases ff cs).1
  | .nil, h => by simpa only [optCases] using h
  | .cons test b ft rest, h => by
    simp only [optCases]
    exact ⟨opt_known hff b h.1, optCases_known hff rest h.2⟩
end

theorem optCases_isNil (ff : Nat) (cs : Cases) : (optCases ff cs).1.isNil = cs.isNil := by
  cases cs <;> simp [optCases, Cases.isNil]

mutual
theorem opt_safe (ff : Nat) : (s : Stmt) → ∀ top last d w, Safe top last d w s → Safe top last d w (opt ff s).1
  | .skip, _, _, _, _, h => h
  | .act i, _, _, _, _, h => h
  | .seq x y, top, last, d, w, h => by
    by_cases ht : (opt ff x).2.any = true
    · simp only [opt, if_pos ht]; exact opt_safe ff x _ _ _ _ h.1
    · simp only [opt, if_neg ht]; exact ⟨opt_safe ff x _ _ _ _ h.1, opt_safe ff y _ _ _ _ h.2⟩
  | .ite c t, top, last, d, w, h => by
    simp only [opt]
    split
    · exact opt_safe ff t _ _ _ _ h.2
    · trivial
    · exact ⟨h.1, opt_safe ff t _ _ _ _ h.2⟩
  | .itee c t e, top, last, d, w, h => by
    simp only [opt]
    split
    · exact opt_safe ff t _ _ _ _ h.2.1
    · exact opt_safe ff e _ _ _ _ h.2.2
    · exact ⟨h.1, opt_safe ff t _ _ _ _ h.2.1, opt_safe ff e _ _ _ _ h.2.2⟩
  | .while c b, top, last, d, w, h => by
    simp only [opt]
    split
    · exact ⟨h.1, trivial⟩
    · exact ⟨h.1, opt_safe ff b _ _ _ _ h.2⟩
    · exact ⟨h.1, opt_safe ff b _ _ _ _ h.2⟩
  | .repeat b c, top, last, d, w, h => by
    simp only [opt]
    refine ⟨?_, opt_safe ff b _ _ _ _ h.2⟩
    split
    · trivial
    · exact h.1
  | .forIn i j b, top, last, d, w, h => opt_safe ff b _ _ _ _ h
  | .switch i cs, top, last, d, w, h => optCases_safe ff cs _ _ _ _ h
  | .jump .brk, _, _, _, _, h => h
  | .jump .cont, _, _, _, _, h => h
  | .jump .fall, _, _, _, _, h => h
  | .ret i, _, _, _, _, h => h
  | .throw i, _, _, _, _, h => h
  | .assert c k, _, _, _, _, h => h
  | .tryCatch b f, top, last, d, w, h => ⟨opt_safe ff b _ _ _ _ h.1, opt_safe ff f _ _ _ _ h.2⟩
  | .tryDefer b f, top, last, d, w, h => ⟨opt_safe ff b _ _ _ _ h.1, opt_safe ff f _ _ _ _ h.2⟩

theorem optCases_safe (ff : Nat) : (cs : Cases) → ∀ top last d w, SafeCases top last d w cs → SafeCases top last d w (optCases ff cs).1
  | .nil, _, _, _, _, h => by simpa only [optCases] using h
  | .cons test b ft rest, top, last, d, w, h => by
    simp only [optCases]
    refine ⟨?_, optCases_safe ff rest _ _ _ _ h.2⟩
    rw [optCases_isNil]
    exact opt_safe ff b _ _ _ _ h.1
end

/-! ### A condition which does not mention the optimizer -/

mutual
/-- The statement has a `return` or a `throw`. -/
def Exits : Stmt → Bool
  | .seq a b => Exits a || Exits b
  | .ite _ t => Exits t
  | .itee _ t e => Exits t || Exits e
  | .while _ b => Exits b
  | .repeat b _ => Exits b
  | .forIn _ _ b => Exits b
  | .switch _ cs => ExitsCs cs
  | .ret _ => true
  | .throw _ => true
  | .tryCatch b h => Exits b || Exits h
  | .tryDefer b f => Exits b || Exits f
  | _ => false

def ExitsCs : Cases → Bool
  | .nil => false
  | .cons _ b _ rest => Exits b || ExitsCs rest
end

mutual
/-- No body of a loop or a case has both a `break` which leaves it and a `return` or `throw`; no body of `repeat` has a `continue`. -/
def Apart : Stmt → Prop
  | .seq a b => Apart a ∧ Apart b
  | .ite _ t => Apart t
  | .itee _ t e => Apart t ∧ Apart e
  | .while _ b => Apart b ∧ (Leaves .brk b = true → Exits b = false)
  | .repeat b _ => Apart b ∧ (Leaves .brk b = true → Exits b = false) ∧ Leaves .cont b = false
  | .forIn _ _ b => Apart b
  | .switch _ cs => ApartCs cs
  | .tryCatch b h => Apart b ∧ Apart h
  | .tryDefer b f => Apart b ∧ Apart f
  | _ => True

def ApartCs : Cases → Prop
  | .nil => True
  | .cons _ b _ rest => (Apart b ∧ (Leaves .brk b = true → Exits b = false)) ∧ ApartCs rest
end

mutual
theorem exits_opt (ff : Nat) : (s : Stmt) → Exits s = false → (opt ff s).2.thr = false ∧ (opt ff s).2.ret = false
  | .skip, _ => ⟨rfl, rfl⟩
  | .act i, _ => ⟨rfl, rfl⟩
  | .seq x y, h => by
    simp only [Exits, Bool.or_eq_false_iff] at h
    simp only [opt]
    split
    · exact exits_opt ff x h.1
    · exact exits_opt ff y h.2
  | .ite c t, h => by
    simp only [opt]
    split
    · exact exits_opt ff t h
    · exact ⟨rfl, rfl⟩
    · exact ⟨rfl, rfl⟩
  | .itee c t e, h => by
    simp only [Exits, Bool.or_eq_false_iff] at h
    have h1 := exits_opt ff t h.1
    have h2 := exits_opt ff e h.2
    simp only [opt]
    split
    · exact h1
    · exact h2
    · simp only; split <;> simp [Term.or, Term.none, h1, h2]
  | .while c b, h => by
    have h1 := exits_opt ff b h
    simp only [opt]
    split
    · exact ⟨rfl, rfl⟩
    · simp only; split <;> simp [Term.none, h1]
    · exact ⟨rfl, rfl⟩
  | .repeat b c, h => by
    have h1 := exits_opt ff b h
    simp only [opt]
    split <;> simp [Term.none, h1]
  | .forIn i j b, h => ⟨rfl, rfl⟩
  | .switch i cs, h => by
    have h1 := exitsCs_opt ff cs h
    simp only [opt]
    split <;> simp [Term.none, h1]
  | .jump .brk, _ => ⟨rfl, rfl⟩
  | .jump .cont, _ => ⟨rfl, rfl⟩
  | .jump .fall, _ => ⟨rfl, rfl⟩
  | .ret i, h => by simp [Exits] at h
  | .throw i, h => by simp [Exits] at h
  | .assert c k, _ => ⟨rfl, rfl⟩
  | .tryCatch b f, h => by
    simp only [Exits, Bool.or_eq_false_iff] at h
    have h1 := exits_opt ff b h.1
    have h2 := exits_opt ff f h.2
    simp only [opt]
    split <;> simp [Term.or, Term.none, h1, h2]
  | .tryDefer b f, h => by
    simp only [Exits, Bool.or_eq_false_iff] at h
    exact exits_opt ff f h.2

theorem exitsCs_opt (ff : Nat) : (cs : Cases) → ExitsCs cs = false → (optCases ff cs).2.2.thr = false ∧ (optCases ff cs).2.2.ret = false
  | .nil, _ => by simp [optCases, Term.none]
  | .cons test b ft rest, h => by
    simp only [ExitsCs, Bool.or_eq_false_iff] at h
    have h1 := exits_opt ff b h.1
    have h2 := exitsCs_opt ff rest h.2
    simp only [optCases]
    split <;> simp [Term.or, Term.none, h1, h2]
end

theorem exits_seen {ff : Nat} {s : Stmt} (h : Exits s = false) : Seen (opt ff s).2 := by
  have := exits_opt ff s h
  unfold Seen Term.any
  cases h : (opt ff s).2.brk <;> simp [this]

mutual
/-- The optimizer knows of all jumps if each `break` is apart from `return` and `throw`, and there is no `continue` in `repeat`. -/
theorem apart_counted (ff : Nat) : (s : Stmt) → Apart s → Counted ff s
  | .skip, _ => trivial
  | .act i, _ => trivial
  | .seq x y, h => ⟨apart_counted ff x h.1, apart_counted ff y h.2⟩
  | .ite c t, h => apart_counted ff t h
  | .itee c t e, h => ⟨apart_counted ff t h.1, apart_counted ff e h.2⟩
  | .while c b, h => ⟨apart_counted ff b h.1, fun _ hb => exits_seen (h.2 hb)⟩
  | .repeat b c, h => ⟨apart_counted ff b h.1, fun hb => exits_seen (h.2.1 hb), fun hc => by rw [h.2.2] at hc; cases hc⟩
  | .forIn i j b, h => apart_counted ff b h
  | .switch i cs, h => apartCs_counted ff cs h
  | .jump _, _ => trivial
  | .ret i, _ => trivial
  | .throw i, _ => trivial
  | .assert c k, _ => trivial
  | .tryCatch b f, h => ⟨apart_counted ff b h.1, apart_counted ff f h.2⟩
  | .tryDefer b f, h => ⟨apart_counted ff b h.1, apart_counted ff f h.2⟩

theorem apartCs_counted (ff : Nat) : (cs : Cases) → ApartCs cs → CountedCs ff cs
  | .nil, _ => trivial
  | .cons _ b _ rest, h => ⟨⟨apart_counted ff b h.1.1, fun hb => exits_seen (h.1.2 hb)⟩, apartCs_counted ff rest h.2⟩
end

end Verif.Ctl
