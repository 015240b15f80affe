import Verif.Expr.Spec

/-!
# Facts about tokens
-/

namespace Verif.Expr

theorem peek_kind {ts : Toks} {k : Kind} (h : (peek ts).kind = k) (hk : k ≠ .eof) :
    ∃ b, ts = ⟨k, b⟩ :: ts.tail := by
  cases ts with
  | nil => exact absurd h.symm hk
  | cons t ts => exact ⟨t.eol, by cases t; simp only [peek] at h; simp [h]⟩

theorem peek_kind' {ts : Toks} {k : Kind} (h : (peek ts).kind = k) (hk : k ≠ .eof) :
    ts = ⟨k, (peek ts).eol⟩ :: ts.tail := by
  cases ts with
  | nil => exact absurd h.symm hk
  | cons t ts => cases t; simp only [peek] at h; simp [h, peek]

theorem isSep_cons {ts : Toks} {s : Sep} (h : (peek ts).isSep s = true) :
    ts = ⟨.sep s, (peek ts).eol⟩ :: ts.tail :=
  peek_kind' (by simpa [Tok.isSep] using h) (by simp)

theorem isOp_cons {ts : Toks} {o : Op} (h : (peek ts).isOp o = true) :
    ts = ⟨.op o, (peek ts).eol⟩ :: ts.tail :=
  peek_kind' (by simpa [Tok.isOp] using h) (by simp)

theorem isKw_cons {ts : Toks} {k : Kw} (h : (peek ts).isKw k = true) :
    ts = ⟨.kw k, (peek ts).eol⟩ :: ts.tail :=
  peek_kind' (by simpa [Tok.isKw] using h) (by simp)

theorem code_mul (k : Kind) : k.code &&& 0xF8 = 0x88 ↔ k ∈ mulOps := by
  cases k with
  | op o => cases o <;> decide
  | _ => simp [Kind.code, mulOps]

theorem code_set (k : Kind) : k.code = 0x10 ↔ k = .op .set := by
  cases k with
  | op o => cases o <;> decide
  | _ => simp [Kind.code]

theorem code_arith (k : Kind) : k.code &&& 0x80 ≠ 0 ↔ k ∈ mulOps ∨ k ∈ addOps := by
  cases k with
  | op o => cases o <;> decide
  | _ => simp [Kind.code, mulOps, addOps]

theorem code_bit (k : Kind) : k.code &&& 0xF8 = 0x20 ↔ ∃ o, o ∈ bitOps ∧ k = .op o := by
  cases k with
  | op o => cases o <;> simp [Kind.code, Op.code, bitOps]
  | _ => simp [Kind.code]

/-- The test for mixing bitwise operators and arithmetic in `bitLoop` never succeeds. -/
theorem code_arithmetic (k : Kind) : k.code &&& 0xF8 ≠ 0x80 := by
  cases k with
  | op o => cases o <;> decide
  | _ => simp [Kind.code]

theorem code_cmp (k : Kind) : k.code &&& 0xF8 = 0x28 ↔ k ∈ cmpOps ∧ k ≠ .kw .instanceof := by
  cases k with
  | op o => cases o <;> decide
  | kw k => cases k <;> simp [Kind.code, cmpOps]
  | _ => simp [Kind.code, cmpOps]

theorem code_inj {o : Op} {k : Kind} (h : k.code = o.code) : k = .op o := by
  cases k with
  | op p => revert h; cases p <;> cases o <;> decide
  | _ => revert h; cases o <;> simp [Kind.code, Op.code]

theorem isUnary_iff (t : Tok) : isUnary t = true ↔ t.kind ∈ unaryOps := by
  obtain ⟨k, b⟩ := t
  cases k with
  | op o => cases o <;> simp [isUnary, Tok.op, Tok.isKw, Kind.code, Op.code, unaryOps]
  | kw k => cases k <;> simp [isUnary, Tok.op, Tok.isKw, Kind.code, unaryOps]
  | _ => simp [isUnary, Tok.op, Tok.isKw, Kind.code, unaryOps]

theorem continues_iff (k : Kind) : continues k = true ↔ k ∈ continuers := by
  cases k with
  | op o => cases o <;> decide
  | kw k => cases k <;> simp [continues, continuers, mulOps, addOps, bitOps, shiftOps, cmpOps,
      swapOps, logicOps]
  | sep s => cases s <;> decide
  | _ => simp [continues, continuers, mulOps, addOps, bitOps, shiftOps, cmpOps, swapOps,
      logicOps]

theorem isName_iff (k : Kind) : isName k = true ↔ Name k := by
  constructor
  · intro h
    cases k <;> simp [isName] at h
    · exact .ident _
    · exact .kw _
    · exact .str _
  · intro h
    cases h <;> rfl

theorem Name.ne_eof {k : Kind} (h : Name k) : k ≠ .eof := by
  cases h <;> simp

theorem mem_ne_eof {k : Kind} {l : List Kind} (h : k ∈ l) (hl : Kind.eof ∉ l) : k ≠ .eof :=
  fun he => hl (he ▸ h)

end Verif.Expr
