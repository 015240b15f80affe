import Verif.Expr.Sound

/-!
# How phrases of the grammar begin
-/

namespace Verif.Expr

/-- First tokens of PrimaryExpression. -/
def starts : Kind → Bool
  | .num _ | .str _ | .ident _ => true
  | .kw .this | .kw .super | .kw .line | .kw .true | .kw .false | .kw .void
  | .kw .underscore => true
  | .sep .parenOpen | .sep .squareOpen | .sep .curlyOpen => true
  | _ => false

/-- First tokens of UnaryExpression. -/
def startsUnary (k : Kind) : Bool := starts k || decide (k ∈ unaryOps)

/-- First tokens of RHSExpression. -/
def startsRhs (k : Kind) : Bool :=
  startsUnary k || decide (k = .kw .yield) || decide (k = .kw .async)

/-- The first token, and the second one if the first is an identifier. -/
def Head (s : Kind → Bool) (ts : Toks) : Prop :=
  ∃ t r, ts = t :: r ∧ s t.kind = true ∧
    (isIdent t.kind = true → r = [] ∨ continues (peek r).kind = true)

theorem Head.mono {s s' : Kind → Bool} {ts : Toks} (h : Head s ts)
    (hs : ∀ k, s k = true → s' k = true) : Head s' ts := by
  obtain ⟨t, r, h1, h2, h3⟩ := h
  exact ⟨t, r, h1, hs _ h2, h3⟩

theorem Head.append {s : Kind → Bool} {as bs : Toks} {k : Kind} {b : Bool} (h : Head s as)
    (hk : continues k = true) : Head s (as ++ ⟨k, b⟩ :: bs) := by
  obtain ⟨t, r, rfl, h2, h3⟩ := h
  refine ⟨t, r ++ ⟨k, b⟩ :: bs, rfl, h2, fun hi => .inr ?_⟩
  cases r with
  | nil => exact hk
  | cons u r =>
    rcases h3 hi with h3 | h3
    · cases h3
    · exact h3

theorem Head.unary {ts : Toks} (h : Head starts ts) : Head startsUnary ts :=
  h.mono fun k hk => by simp [startsUnary, hk]

theorem Head.rhs {ts : Toks} (h : Head startsUnary ts) : Head startsRhs ts :=
  h.mono fun k hk => by simp [startsRhs, hk]

theorem Head.one {s : Kind → Bool} {k : Kind} {b : Bool} (h : s k = true) :
    Head s [⟨k, b⟩] := ⟨_, _, rfl, h, fun _ => .inl rfl⟩

theorem Head.cons {s : Kind → Bool} {k : Kind} {b : Bool} {r : Toks} (h : s k = true)
    (hi : isIdent k = false) : Head s (⟨k, b⟩ :: r) :=
  ⟨_, _, rfl, h, fun h' => by rw [hi] at h'; cases h'⟩

/-- What holds of the beginning of a phrase. -/
def Begins : Cat → Toks → Prop
  | .primary, ts | .member, ts => Head starts ts
  | .unary, ts | .mul, ts | .add, ts | .bit _, ts | .shift, ts | .arith, ts | .comparison, ts
  | .logic _, ts | .logical, ts | .cond, ts | .stream, ts => Head startsUnary ts
  | .async, ts => ∃ b r, ts = ⟨.kw .async, b⟩ :: r
  | .rhs, ts => Head startsRhs ts
  | _, _ => True

theorem continues_mem {k : Kind} (h : k ∈ continuers) : continues k = true :=
  (continues_iff k).2 h

theorem begins' {d : Dialect} {cat : Cat} {x : Ctx} {o w : Bool} {ts : Toks} {t : Ast}
    (h : G d cat x o w ts t) : Begins cat ts ∧ (∀ k, cat = .bit k → k ∈ bitOps) ∧
      (∀ k, cat = .logic k → k ∈ logicOps) := by
  have mem1 : ∀ {k}, k ∈ mulOps → continues k = true := fun h =>
    continues_mem (by simp [continuers, h])
  have mem2 : ∀ {k}, k ∈ addOps → continues k = true := fun h =>
    continues_mem (by simp [continuers, h])
  have mem3 : ∀ {k}, k ∈ bitOps → continues (.op k) = true := fun h =>
    continues_mem (by simp [continuers, h])
  have mem4 : ∀ {k}, k ∈ shiftOps → continues k = true := fun h =>
    continues_mem (by simp [continuers, h])
  have mem5 : ∀ {k}, k ∈ cmpOps → continues k = true := fun h =>
    continues_mem (by simp [continuers, h])
  have mem6 : ∀ {k}, k ∈ swapOps → continues k = true := fun h =>
    continues_mem (by simp [continuers, h])
  have mem7 : ∀ {k}, k ∈ logicOps → continues (.op k) = true := fun h =>
    continues_mem (by simp [continuers, h])
  induction h with
  | atom b ha => exact ⟨.one (by cases ha <;> rfl), nofun, nofun⟩
  | paren => exact ⟨.cons rfl rfl, nofun, nofun⟩
  | array => exact ⟨.cons rfl rfl, nofun, nofun⟩
  | object => exact ⟨.cons rfl rfl, nofun, nofun⟩
  | lambda1 => exact ⟨⟨_, _, rfl, rfl, fun _ => .inr rfl⟩, nofun, nofun⟩
  | lambda => exact ⟨.cons rfl rfl, nofun, nofun⟩
  | member _ ih => exact ⟨ih.1, nofun, nofun⟩
  | dot _ _ _ _ ih => exact ⟨ih.1.append rfl, nofun, nofun⟩
  | optDot _ _ _ _ _ ih => exact ⟨ih.1.append rfl, nofun, nofun⟩
  | index _ _ _ _ _ ih =>
    exact ⟨by rw [List.append_assoc]; exact ih.1.append rfl, nofun, nofun⟩
  | optIndex _ _ _ _ _ _ ih =>
    exact ⟨by rw [List.append_assoc]; exact ih.1.append rfl, nofun, nofun⟩
  | slice _ _ _ _ _ _ _ ih =>
    exact ⟨by rw [List.append_assoc, List.append_assoc]; exact ih.1.append rfl, nofun, nofun⟩
  | optSlice _ _ _ _ _ _ _ _ _ ih =>
    exact ⟨by rw [List.append_assoc, List.append_assoc]; exact ih.1.append rfl, nofun, nofun⟩
  | call _ _ _ _ _ _ ih =>
    exact ⟨by rw [List.append_assoc]; exact ih.1.append rfl, nofun, nofun⟩
  | unary0 _ ih => exact ⟨ih.1.unary, nofun, nofun⟩
  | unary b hk =>
    refine ⟨.cons (by simp [startsUnary, hk]) ?_, nofun, nofun⟩
    simp only [unaryOps, List.mem_cons, List.not_mem_nil, or_false] at hk
    rcases hk with rfl | rfl | rfl | rfl | rfl | rfl <;> rfl
  | mul0 _ ih => exact ⟨ih.1, nofun, nofun⟩
  | mul _ _ hk _ ih => exact ⟨ih.1.append (mem1 hk), nofun, nofun⟩
  | add0 _ ih => exact ⟨ih.1, nofun, nofun⟩
  | add _ _ hk _ _ ih => exact ⟨ih.1.append (mem2 hk), nofun, nofun⟩
  | bit1 _ hk _ _ ih => exact ⟨ih.1.append (mem3 hk), fun _ h => by cases h; exact hk, nofun⟩
  | bit _ _ _ ih =>
    exact ⟨ih.1.append (mem3 (ih.2.1 _ rfl)), fun _ h => by cases h; exact ih.2.1 _ rfl, nofun⟩
  | shift1 _ hk _ _ ih => exact ⟨ih.1.append (mem4 hk), nofun, nofun⟩
  | shift _ _ hk _ _ ih => exact ⟨ih.1.append (mem4 hk), nofun, nofun⟩
  | arith _ ih => exact ⟨ih.1, nofun, nofun⟩
  | arithBit _ _ ih => exact ⟨ih.1, nofun, nofun⟩
  | arithShift _ ih => exact ⟨ih.1, nofun, nofun⟩
  | cmp0 _ ih => exact ⟨ih.1, nofun, nofun⟩
  | cmp _ _ hk _ ih => exact ⟨ih.1.append (mem5 hk), nofun, nofun⟩
  | swap _ _ hk _ ih => exact ⟨ih.1.append (mem6 hk), nofun, nofun⟩
  | logic1 _ hk _ _ ih => exact ⟨ih.1.append (mem7 hk), nofun, fun _ h => by cases h; exact hk⟩
  | logic _ _ _ ih ih2 =>
    exact ⟨ih.1.append (mem7 (ih2.2.2 _ rfl)), nofun,
      fun _ h => by cases h; exact ih2.2.2 _ rfl⟩
  | logical0 _ ih => exact ⟨ih.1, nofun, nofun⟩
  | logical _ _ ih => exact ⟨ih.1, nofun, nofun⟩
  | cond0 _ ih => exact ⟨ih.1, nofun, nofun⟩
  | cond _ _ _ _ _ ih =>
    exact ⟨by rw [List.append_assoc]; exact ih.1.append rfl, nofun, nofun⟩
  | stream0 _ ih => exact ⟨ih.1, nofun, nofun⟩
  | stream _ _ _ _ ih => exact ⟨ih.1.append rfl, nofun, nofun⟩
  | async b => exact ⟨⟨b, _, rfl⟩, nofun, nofun⟩
  | rhs _ ih => exact ⟨ih.1.rhs, nofun, nofun⟩
  | rhsAsync _ ih =>
    obtain ⟨b, r, rfl⟩ := ih.1
    exact ⟨.cons rfl rfl, nofun, nofun⟩
  | yield => exact ⟨.cons rfl rfl, nofun, nofun⟩
  | yieldAsync => exact ⟨.cons rfl rfl, nofun, nofun⟩
  | _ => exact ⟨trivial, nofun, nofun⟩

theorem begins {d : Dialect} {cat : Cat} {x : Ctx} {o w : Bool} {ts : Toks} {t : Ast}
    (h : G d cat x o w ts t) : Begins cat ts := (begins' h).1

theorem bit_mem {d : Dialect} {k : Op} {x : Ctx} {o w : Bool} {ts : Toks} {t : Ast}
    (h : G d (.bit k) x o w ts t) : k ∈ bitOps := (begins' h).2.1 k rfl

theorem logic_mem {d : Dialect} {k : Op} {x : Ctx} {o w : Bool} {ts : Toks} {t : Ast}
    (h : G d (.logic k) x o w ts t) : k ∈ logicOps := (begins' h).2.2 k rfl

end Verif.Expr
