import Verif.Expr.Transfer

/-!
C75: an expression is parsed into the tree which the documented grammar gives it, and what has
no tree in that grammar is rejected.
-/

namespace Verif.Expr

/-- `t` is the tree of `pre` in the grammar `d`, and `pre` ends in front of `rest`. -/
def Reads (d : Dialect) (e : Env) (pre : Toks) (t : Ast) (rest : Toks) : Prop :=
  ∃ w, G d .rhs e.ctx e.outer w pre t ∧ (w = true → (peek rest).kind ∉ continuers)

/-- Whatever is accepted is a documented expression with this tree. -/
def OnlyDocumented (c : Cfg) : Prop :=
  ∀ e ts t r, parseRhs c e ts = .ok t r → ∃ pre, ts = pre ++ r ∧ Reads .doc e pre t r

/-- Every documented expression is accepted with its tree, unless the tree is too deep. -/
def AllDocumented (c : Cfg) : Prop :=
  ∀ e pre t rest, Reads .doc e pre t rest → (peek rest).kind ∉ continuers →
    e.depth + pre.length < c.max → parseRhs c e (pre ++ rest) = .ok t rest

/-- The full claim, which is wrong in both parts. -/
def C75_full : Prop := ∀ max, OnlyDocumented ⟨.code, max⟩ ∧ AllDocumented ⟨.code, max⟩

theorem continues_false {k : Kind} (h : k ∉ continuers) : continues k = false := by
  rw [Bool.eq_false_iff]
  exact fun h' => h ((continues_iff k).1 h')

/-- A documented expression without two commas in a row and with at most one shift operator is
accepted, by every variant of the parser, with the tree which the grammar gives it, if it is
shorter than the greatest depth.  What is missing: expressions with two shift operators, and
with empty entries in object literals. -/
theorem C75_accepts_partial (c : Cfg) {e : Env} {pre : Toks} {t : Ast} {rest : Toks}
    (h : Reads .doc e pre t rest) (hn : Neat pre) (hr : (peek rest).kind ∉ continuers)
    (hd : e.depth + pre.length < c.max) : parseRhs c e (pre ++ rest) = .ok t rest := by
  obtain ⟨w, h, -⟩ := h
  have h' := (doc_moved h c.dial e.outer hn id).g nofun
  rcases parseRhs_found h' (continues_false hr) with h | ⟨-, h⟩
  · exact h
  · omega

/-- What is accepted is a documented expression with this tree, if there is no `=>` in the text,
no `(` or `[` is the first token of a line, and no `[` has a `?` behind it.  What is missing:
these. -/
theorem C75_rejects_partial (max : Nat) {e : Env} {ts : Toks} {t : Ast} {r : Toks}
    (h : parseRhs ⟨.code, max⟩ e ts = .ok t r) (hs : Strict ts) :
    ∃ pre, ts = pre ++ r ∧ Reads .doc e pre t r := by
  obtain ⟨pre, w, rfl, h1, h2⟩ := parseRhs_sound e ts t r (.inr hs.1) h
  refine ⟨pre, rfl, w, code_moved rfl rfl h1 .doc e.outer hs.left (by simp) (.inr rfl), ?_⟩
  intro hw hc
  exact Bool.false_ne_true ((h2 hw).symm.trans ((continues_iff _).2 hc))

/-- With its own grammar, every variant of the parser agrees: what it accepts has this tree. -/
theorem C75_own_partial (c : Cfg) {e : Env} {ts : Toks} {t : Ast} {r : Toks}
    (hc : c.rules.bodyResume = false ∨ ∀ x ∈ ts, x.kind ≠ .op .lambda)
    (h : parseRhs c e ts = .ok t r) :
    ∃ pre, ts = pre ++ r ∧ Reads ⟨c.rules, false, false⟩ e pre t r := by
  obtain ⟨pre, w, rfl, h1, h2⟩ := parseRhs_sound e ts t r hc h
  refine ⟨pre, rfl, w, h1, ?_⟩
  intro hw hc
  exact Bool.false_ne_true ((h2 hw).symm.trans ((continues_iff _).2 hc))

/-- And it accepts everything in it. -/
theorem C75_ownAll_partial (c : Cfg) {e : Env} {pre : Toks} {t : Ast} {rest : Toks}
    (h : Reads ⟨c.rules, false, false⟩ e pre t rest) (hr : (peek rest).kind ∉ continuers)
    (hd : e.depth + pre.length < c.max) : parseRhs c e (pre ++ rest) = .ok t rest := by
  obtain ⟨w, h, -⟩ := h
  rcases parseRhs_found (c := c) h (continues_false hr) with h | ⟨-, h⟩
  · exact h
  · omega

/-- The documented grammar gives a text at most one tree (with the exceptions above). -/
theorem C75_unambiguous_partial {e : Env} {pre : Toks} {t t' : Ast} (hn : Neat pre)
    (h : Reads .doc e pre t []) (h' : Reads .doc e pre t' []) : t = t' := by
  have key := fun {t} (h : Reads .doc e pre t []) => C75_accepts_partial
    ⟨.code, e.depth + pre.length + 1⟩ h hn (by decide) (Nat.lt_succ_self _)
  have h1 := (key h).symm.trans (key h')
  cases h1
  rfl

/-! ## Examples -/

/-- core/kos_config.h:34 -/
def codeCfg : Cfg := ⟨.code, 100⟩

def topEnv : Env := ⟨false, false, 0, 0⟩

def tk (k : Kind) : Tok := ⟨k, false⟩
def nl (k : Kind) : Tok := ⟨k, true⟩
def tA : Tok := tk (.ident 0)
def tB : Tok := tk (.ident 1)
def tC : Tok := tk (.ident 2)
def aA : Ast := .ident 0
def aB : Ast := .ident 1
def aC : Ast := .ident 2

/-- `a * b + c` and `c + a * b` -/
example : parseRhs codeCfg topEnv [tA, tk (.op .mul), tB, tk (.op .add), tC] =
    .ok (.oper (.op .add) [.oper (.op .mul) [aA, aB], aC]) [] := rfl
example : parseRhs codeCfg topEnv [tC, tk (.op .add), tA, tk (.op .mul), tB, tk (.sep .semicolon)] =
    .ok (.oper (.op .add) [aC, .oper (.op .mul) [aA, aB]]) [tk (.sep .semicolon)] := rfl
/-- `a - b - c` -/
example : parseRhs codeCfg topEnv [tA, tk (.op .sub), tB, tk (.op .sub), tC] =
    .ok (.oper (.op .sub) [.oper (.op .sub) [aA, aB], aC]) [] := rfl
/-- `a -> b -> c` -/
example : parseRhs codeCfg topEnv [tA, tk (.op .arrow), tB, tk (.op .arrow), tC] =
    .ok (.call aC [.call aB [aA]]) [] := rfl
/-- `a & b + c` is rejected, and so is `a < b < c`. -/
example : parseRhs codeCfg topEnv [tA, tk (.op .and), tB, tk (.op .add), tC] =
    .ok (.oper (.op .and) [aA, aB]) [tk (.op .add), tC] := rfl
example : parseRhs codeCfg topEnv [tA, tk (.op .lt), tB, tk (.op .lt), tC] =
    .ok (.oper (.op .lt) [aA, aB]) [tk (.op .lt), tC] := rfl
/-- `(a, b = 1, c...) => a.b[c](b)` -/
example : parseRhs codeCfg topEnv [tk (.sep .parenOpen), tA, tk (.sep .comma), tB, tk (.op .set),
    tk (.num 1), tk (.sep .comma), tC, tk (.op .more), tk (.sep .parenClose), tk (.op .lambda),
    tA, tk (.op .dot), tB, tk (.sep .squareOpen), tC, tk (.sep .squareClose),
    tk (.sep .parenOpen), tB, tk (.sep .parenClose)] =
    .ok (.lambda (.params [aA, .mk .assignment none [aB, .num 1], .mk .ellipsis none [aC]])
      (.call (.refine false (.refine false aA (.str (.ident 1))) aC) [aB])) [] := rfl

/-- The derivation of `a - b * c`. -/
example : Reads .doc topEnv [tA, tk (.op .sub), tB, tk (.op .mul), tC]
    (.oper (.op .sub) [aA, .oper (.op .mul) [aB, aC]]) [] :=
  ⟨false, .rhs (.stream0 (.cond0 (.logical0 (.cmp0 (.arith (.add (as := [tA]) (k := .op .sub) false
    (.add0 (.mul0 (.unary0 (.member (.atom false (.ident 0))))))
    (by decide) (by rintro ⟨-, h⟩; cases h)
    (.mul (as := [tB]) (k := .op .mul) false (.mul0 (.unary0 (.member (.atom false (.ident 1)))))
      (by decide) (.unary0 (.member (.atom false (.ident 2))))))))))), nofun⟩

/-! ## What is accepted without being documented -/

/-- The parser without the four additions. -/
def docCfg : Cfg := ⟨⟨false, false, false, false⟩, 100⟩

/-- A text which the parser of the documented grammar does not accept as a whole is not
documented. -/
theorem undocumented {e : Env} {ts : Toks} {t : Ast} (hn : Neat ts)
    (hd : e.depth + ts.length < 100) (h : ∀ t, parseRhs docCfg e ts ≠ .ok t []) :
    ¬∃ pre, ts = pre ++ [] ∧ Reads .doc e pre t [] := by
  rintro ⟨pre, h1, h2⟩
  rw [List.append_nil] at h1
  subst h1
  have := C75_accepts_partial docCfg h2 hn (by decide) hd
  rw [List.append_nil] at this
  exact h t this

theorem refuted_ok {ts : Toks} {t t' : Ast} {r : Toks} (hn : Neat ts) (hd : ts.length < 100)
    (h : parseRhs codeCfg topEnv ts = .ok t []) (h' : parseRhs docCfg topEnv ts = .ok t' r)
    (hr : r ≠ []) : ¬OnlyDocumented codeCfg := fun hf =>
  undocumented hn (by simpa [topEnv] using hd)
    (fun t'' h'' => hr (by rw [h'] at h''; cases h''; rfl)) (hf _ _ _ _ h)

theorem refuted_err {ts : Toks} {t : Ast} {x : Err} (hn : Neat ts) (hd : ts.length < 100)
    (h : parseRhs codeCfg topEnv ts = .ok t []) (h' : parseRhs docCfg topEnv ts = .err x) :
    ¬OnlyDocumented codeCfg := fun hf =>
  undocumented hn (by simpa [topEnv] using hd)
    (fun t'' h'' => by rw [h'] at h''; cases h'') (hf _ _ _ _ h)

instance (ts : Toks) : Decidable (Neat ts) := inferInstanceAs (Decidable (_ ∧ _))

/-- `-a`, and on the next line `(b)`: a call, although without the `-` it would be an error. -/
def newlineText : Toks := [tk (.op .sub), tA, nl (.sep .parenOpen), tB, tk (.sep .parenClose)]

theorem C75_newline_violated : ¬OnlyDocumented codeCfg :=
  refuted_err (ts := newlineText) (t := .oper (.op .sub) [.call aA [aB]]) (x := .syntax)
    (by decide) (by decide) rfl rfl

example : parseRhs codeCfg topEnv newlineText.tail = .err .syntax := rfl

/-- `a[?b:c]`: the `?` means nothing. -/
def sliceText : Toks := [tA, tk (.sep .squareOpen), tk (.op .tri), tB, tk (.sep .colon), tC,
  tk (.sep .squareClose)]

theorem C75_slice_violated : ¬OnlyDocumented codeCfg :=
  refuted_err (ts := sliceText) (t := .slice aA aB aC) (x := .syntax) (by decide) (by decide) rfl
    rfl

/-- `(a,) => b` -/
def commaText : Toks := [tk (.sep .parenOpen), tA, tk (.sep .comma), tk (.sep .parenClose),
  tk (.op .lambda), tB]

theorem C75_comma_violated : ¬OnlyDocumented codeCfg :=
  refuted_err (ts := commaText) (t := .lambda (.params [aA]) aB) (x := .syntax)
    (by decide) (by decide) rfl rfl

/-- `a => b < c < 1` is `(a => b < c) < 1`. -/
def bodyText : Toks := [tA, tk (.op .lambda), tB, tk (.op .lt), tC, tk (.op .lt), tk (.num 1)]

theorem C75_body_violated : ¬OnlyDocumented codeCfg :=
  refuted_err (ts := bodyText)
    (t := .oper (.op .lt) [.lambda (.params [aA]) (.oper (.op .lt) [aB, aC]), .num 1])
    (x := .syntax) (by decide) (by decide) rfl rfl

/-! ## What is documented without being accepted -/

/-- `a << b << c` -/
def shiftText : Toks := [tA, tk (.op .shl), tB, tk (.op .shl), tC]

theorem C75_shift_violated : ¬AllDocumented codeCfg := fun h => by
  have h1 := h topEnv shiftText (.oper (.op .shl) [.oper (.op .shl) [aA, aB], aC]) []
    ⟨false, .rhs (.stream0 (.cond0 (.logical0 (.cmp0 (.arithShift
      (.shift (as := [tA, tk (.op .shl), tB]) (k := .op .shl) false rfl (by decide)
        (.shift1 (as := [tA]) (k := .op .shl) false (by decide)
          (.unary0 (.member (.atom false (.ident 0)))) (.unary0 (.member (.atom false (.ident 1)))))
        (.unary0 (.member (.atom false (.ident 2)))))))))), nofun⟩
    (by decide) (by decide)
  have h2 : parseRhs codeCfg topEnv (shiftText ++ []) =
    .ok (.oper (.op .shl) [aA, aB]) [tk (.op .shl), tC] := rfl
  rw [h2] at h1
  injection h1 with _ h1
  cases h1

/-- `{a : b,, c : 1}` -/
def propsText : Toks := [tk (.sep .curlyOpen), tA, tk (.sep .colon), tB, tk (.sep .comma),
  tk (.sep .comma), tC, tk (.sep .colon), tk (.num 1), tk (.sep .curlyClose)]

theorem rhs_of_primary {d : Dialect} {c : Ctx} {o w : Bool} {ts : Toks} {t : Ast}
    (h : G d .primary c o w ts t) : G d .rhs c o w ts t :=
  .rhs (.stream0 (.cond0 (.logical0 (.cmp0 (.arith (.add0 (.mul0 (.unary0 (.member h)))))))))

theorem C75_props_violated : ¬AllDocumented codeCfg := fun h => by
  have h1 := h topEnv propsText (.object [.prop (.ident 0) aB, .prop (.ident 2) (.num 1)]) []
    ⟨false, rhs_of_primary (.object (l := [.prop (.ident 0) aB, .prop (.ident 2) (.num 1)])
      (ts := [tA, tk (.sep .colon), tB, tk (.sep .comma), tk (.sep .comma), tC, tk (.sep .colon),
        tk (.num 1)]) false false
      (.fields (.props (as := [tA, tk (.sep .colon), tB, tk (.sep .comma)])
        (l := [.prop (.ident 0) aB]) (ts := [tk (.num 1)]) false false false
        (.propsEmpty (ts := [tA, tk (.sep .colon), tB]) false rfl
          (.props1 (ts := [tB]) false false (.ident 0)
            (rhs_of_primary (.atom false (.ident 1)))))
        (.ident 2) (rhs_of_primary (.atom false (.num 1)))))), nofun⟩
    (by decide) (by decide)
  have h2 : parseRhs codeCfg topEnv (propsText ++ []) = .err .syntax := rfl
  rw [h2] at h1
  cases h1

theorem C75_full_violated : ¬C75_full := fun h => C75_newline_violated (h 100).1

end Verif.Expr
