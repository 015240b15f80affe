import Verif.Expr.Comp

/-!
# The parser finds every phrase of the grammar: primary, member and unary expressions
-/

namespace Verif.Expr

theorem level_continues (k : Kind) : 6 < level k ↔ continues k = false := by
  cases k with
  | op o => cases o <;> decide
  | kw k => cases k <;> first | decide | exact ⟨fun _ => rfl, fun _ => Nat.lt_succ_self 6⟩
  | sep s => cases s <;> decide
  | _ => simp [level, continues]

theorem level_lambda {k : Kind} (h : 0 < level k) : k ≠ .op .lambda := by
  rintro rfl
  exact absurd h (by decide)

section
variable {c : Cfg} {d n : Nat} {rhs : P}

theorem lambdaBody_found (hr : Complete c rhs n) {e : Env} {w : Bool} {pre rest : Toks} {t ps : Ast}
    (hn : pre.length < n) (hd : e.depth + pre.length + 1 ≤ d)
    (h : G c.dial .rhs ⟨false, false⟩ false w pre t) (hrest : 6 < level (peek rest).kind) :
    OkOr c d (lambdaBody c rhs e ps (pre ++ rest)) (.lambda ps t) rest := by
  refine (hr (e := ⟨false, false, e.depth, 1⟩) rfl rfl hn hd h hrest).andThen ?_
  rw [(level_continues _).1 hrest, Bool.and_false]
  exact .ok

theorem isLambda_paren {ts rest : Toks} {b : Bool} (h : Head startsRhs ts)
    (hrest : 0 < level (peek rest).kind) :
    isLambda (ts ++ ⟨.sep .parenClose, b⟩ :: rest) = false := by
  obtain ⟨⟨k, b1⟩, r, rfl, h2, h3⟩ := h
  cases k with
  | ident x =>
    rcases h3 rfl with rfl | h3
    · have : (peek rest).isOp .lambda = false := isOp_ne (level_lambda hrest)
      have h4 : isLambda (⟨.ident x, b1⟩ :: ⟨.sep .parenClose, b⟩ :: rest) =
        (false || false || false || (true && (peek rest).isOp .lambda)) := rfl
      rw [this] at h4
      exact h4
    · cases r with
      | nil => cases h3
      | cons u r =>
        obtain ⟨k, b2⟩ := u
        change continues k = true at h3
        have h4 : ¬k.code = 0x10 := fun h => by rw [(code_set k).1 h] at h3; cases h3
        have h5 : k ≠ .op .more := by rintro rfl; cases h3
        have h6 : k ≠ .sep .comma := by rintro rfl; cases h3
        have h7 : k ≠ .sep .parenClose := by rintro rfl; cases h3
        simp [isLambda, peek, Tok.isSep, Tok.isOp, Tok.op, h4, h5, h6, h7]
  | sep s => cases s <;> first | rfl | cases h2
  | _ => rfl

theorem listed_head {dl : Dialect} {cat : Cat} {x : Ctx} {o w : Bool} {pre : Toks} {t : Ast}
    (h : G dl cat x o w pre t) : cat = .plain ∨ cat = .defs →
    ∃ y b r, pre = ⟨.ident y, b⟩ :: r ∧
      (r = [] ∨ (peek r).kind = .sep .comma ∨ (peek r).kind = .op .set) := by
  have comma : ∀ {as : Toks} {k b s},
      (∃ y b r, as = ⟨.ident y, b⟩ :: r ∧
        (r = [] ∨ (peek r).kind = .sep .comma ∨ (peek r).kind = .op .set)) →
      k = .sep .comma →
      ∃ y b' r, as ++ ⟨k, b⟩ :: s = ⟨.ident y, b'⟩ :: r ∧
        (r = [] ∨ (peek r).kind = .sep .comma ∨ (peek r).kind = .op .set) := by
    rintro as k b s ⟨y, b', r, rfl, h⟩ rfl
    refine ⟨y, b', r ++ _, rfl, .inr ?_⟩
    cases r with
    | nil => exact .inl rfl
    | cons u r =>
      rcases h with h | h
      · cases h
      · exact h
  induction h with
  | plain1 y b => exact fun _ => ⟨y, b, [], rfl, .inl rfl⟩
  | plain _ _ _ _ ih => exact fun _ => comma (ih (.inl rfl)) rfl
  | defs1 y b => exact fun _ => ⟨y, b, _, rfl, .inr (.inr rfl)⟩
  | defsPlain _ _ _ _ _ _ _ ih => exact fun _ => comma (ih (.inl rfl)) rfl
  | defs _ _ _ _ _ _ ih => exact fun _ => comma (ih (.inr rfl)) rfl
  | _ => rintro (h | h) <;> cases h

theorem isLambda_params {dl : Dialect} {x : Ctx} {o : Bool} {pre : Toks} {t : Ast}
    {b b' : Bool} {rest : Toks} (h : G dl .params x o false pre t) :
    isLambda (pre ++ ⟨.sep .parenClose, b⟩ :: ⟨.op .lambda, b'⟩ :: rest) = true := by
  have key : ∀ {pre : Toks}, (∃ y b r, pre = ⟨.ident y, b⟩ :: r ∧
      (r = [] ∨ (peek r).kind = .sep .comma ∨ (peek r).kind = .op .set)) →
      isLambda (pre ++ ⟨.sep .parenClose, b⟩ :: ⟨.op .lambda, b'⟩ :: rest) = true := by
    rintro _ ⟨y, b1, r, rfl, h⟩
    rcases h with rfl | h
    · rfl
    · cases r with
      | nil => rcases h with h | h <;> cases h
      | cons u r =>
        obtain ⟨k, b2⟩ := u
        rcases h with h | h
        · cases h
          simp [isLambda, peek, Tok.isSep]
        · cases h
          rfl
  have comma : ∀ {as s : Toks} {b1 : Bool}, (∃ y b r, as = ⟨.ident y, b⟩ :: r ∧
      (r = [] ∨ (peek r).kind = .sep .comma ∨ (peek r).kind = .op .set)) →
      (∃ y b r, as ++ ⟨.sep .comma, b1⟩ :: s = ⟨.ident y, b⟩ :: r ∧
      (r = [] ∨ (peek r).kind = .sep .comma ∨ (peek r).kind = .op .set)) := by
    rintro as s b1 ⟨y, b', r, rfl, h⟩
    refine ⟨y, b', r ++ _, rfl, .inr ?_⟩
    cases r with
    | nil => exact .inl rfl
    | cons u r =>
      rcases h with h | h
      · cases h
      · exact h
  cases h with
  | params0 => rfl
  | params hcat h => exact key (listed_head h hcat)
  | paramsComma b htr hcat h => exact key (comma (listed_head h hcat))
  | rest1 => rfl
  | rest x b b' b'' hcat h => exact key (comma (listed_head h hcat))

theorem primary_found (hr : Complete c rhs n) (hemp : c.dial.emptyProps = false) {e : Env}
    {x : Ctx} {o w : Bool} {pre rest : Toks} {t : Ast} (hx : e.ctx = x)
    (hn : pre.length ≤ n) (hd : e.depth + pre.length ≤ d) (h : G c.dial .primary x o w pre t)
    (hs : Stop 0 w rest) : OkOr c d (primary c rhs e (pre ++ rest)) t rest := by
  have hi := e.inner_outer
  have hix : e.inner.ctx = x := hx
  have hid : e.inner.depth = e.depth := rfl
  cases h with
  | atom b ha =>
    cases ha with
    | ident v =>
      have : (peek rest).isOp .lambda = false := isOp_ne (level_lambda hs.1)
      change OkOr c d (if (peek rest).isOp .lambda = true then _ else .ok (Ast.ident v) rest) _ _
      rw [this]
      exact .ok
    | super hm =>
      have : e.member = true := by rw [← hx] at hm; exact hm
      simp only [primary, peek, List.cons_append, List.nil_append, List.tail_cons, this, if_true]
      exact .ok
    | _ => exact .ok
  | @paren _ _ w' ts _ b b' h =>
    have hl : isLambda (ts ++ [⟨.sep .parenClose, b'⟩] ++ rest) = false := by
      rw [List.append_assoc]
      exact isLambda_paren (begins h) hs.1
    simp only [List.length_append, List.length_cons, List.length_nil] at hn hd
    change OkOr c d (if isLambda (ts ++ [⟨.sep .parenClose, b'⟩] ++ rest) = true then _
      else (rhs e.inner (ts ++ [⟨.sep .parenClose, b'⟩] ++ rest)).andThen _) _ _
    rw [hl]
    simp only [Bool.false_eq_true, if_false]
    rw [List.append_assoc]
    refine (hr hix hi (by omega) (by omega) h (by exact Nat.lt_succ_self 6)).andThen ?_
    rw [List.cons_append, assume_sep]
    exact .ok
  | @array _ _ ts l b b' h =>
    simp only [List.length_append, List.length_cons, List.length_nil] at hn hd
    rw [List.append_assoc]
    change OkOr c d (arrayLoop rhs e.inner _ [] (ts ++ ⟨.sep .squareClose, b'⟩ :: rest)) _ _
    subst hx
    refine array_reach (d := d) hr hi (by omega) (by omega) h _ ?_
    simp; omega
  | @object _ _ ts l b b' h =>
    simp only [List.length_append, List.length_cons, List.length_nil] at hn hd
    rw [List.append_assoc]
    change OkOr c d (objectLoop rhs e.inner _ true [] (ts ++ ⟨.sep .curlyClose, b'⟩ :: rest)) _ _
    subst hx
    refine object_reach (d := d) hr hemp hi (by omega) (by omega) h _ ?_
    simp; omega
  | @lambda1 _ _ w' ts t y b b' h =>
    simp only [List.length_cons] at hn hd
    change OkOr c d (lambdaBody c rhs e.inner _ (ts ++ rest)) _ _
    exact lambdaBody_found hr (by omega) (by omega) h (hs.2 rfl)
  | @lambda _ _ w' ps l ts t b b' b'' h h' =>
    have hl : isLambda (ps ++ ⟨.sep .parenClose, b'⟩ :: ⟨.op .lambda, b''⟩ :: ts ++ rest) = true := by
      rw [List.append_assoc]
      exact isLambda_params h
    simp only [List.length_append, List.length_cons] at hn hd
    change OkOr c d (if isLambda (ps ++ ⟨.sep .parenClose, b'⟩ :: ⟨.op .lambda, b''⟩ :: ts ++ rest)
      = true then lambdaLit c rhs e.inner
        (ps ++ ⟨.sep .parenClose, b'⟩ :: ⟨.op .lambda, b''⟩ :: ts ++ rest) else _) _ _
    rw [hl]
    simp only [if_true]
    rw [List.append_assoc]
    subst hx
    refine (params_reach (rest := ⟨.op .lambda, b''⟩ :: ts ++ rest) hr hi (by omega) (by omega) h
      _ ?_).andThen ?_
    · simp
    · change OkOr c d (lambdaBody c rhs e.inner _ (ts ++ rest)) _ _
      exact lambdaBody_found hr (by omega) (by omega) h' (hs.2 rfl)

theorem Fits.not {e : Env} {o : Bool} {k : Kind} {b : Bool} (h : Fits o ⟨k, b⟩)
    (ho : (e.unary == 1) = o) : (b && e.unary == 1) = false := by
  rw [ho]
  cases b
  · rfl
  · cases o
    · rfl
    · exact absurd ⟨rfl, rfl⟩ h

theorem bound_found (hr : Complete c rhs n) {e : Env} (he : e.outer = false) {x : Ctx}
    {pre rest : Toks} {t a y : Ast} {b : Bool} (hx : e.ctx = x) (hn : pre.length < n)
    (hd : e.depth + pre.length + 1 ≤ d) (h : G c.dial .bound x false false pre y) :
    OkOr c d (sliceEnd rhs e t a (pre ++ ⟨.sep .squareClose, b⟩ :: rest)) (.slice t a y) rest := by
  cases h with
  | bound0 => exact .ok
  | bound h =>
    unfold sliceEnd
    rw [isSep_ne (starts_not_sep (begins h) rfl)]
    simp only [Bool.false_eq_true, if_false]
    refine (hr hx he hn hd h (by exact Nat.lt_succ_self 6)).andThen ?_
    rw [assume_sep]
    exact .ok

/-- Indices and slices, without the question mark. -/
theorem refExpr_plain {e : Env} {t : Ast} {ts : Toks} (h : (peek ts).kind ≠ .op .tri) :
    refExpr c rhs e t ts =
      if (peek ts).isSep .squareClose then .err .syntax
      else if (peek ts).isSep .colon then sliceEnd rhs e t .void ts.tail
      else (rhs e ts).andThen fun a r' =>
        if (peek r').isSep .colon then sliceEnd rhs e t a r'.tail
        else assume .squareClose r' fun r'' => .ok (.refine false t a) r'' := by
  unfold refExpr
  simp [isOp_ne h]

theorem refExpr_opt {e : Env} {t : Ast} {ts : Toks} {b : Bool} :
    refExpr c rhs e t (⟨.op .tri, b⟩ :: ts) =
      if (peek ts).isSep .squareClose then .err .syntax
      else if (peek ts).isSep .colon then
        if c.rules.optSlice then sliceEnd rhs e t .void ts.tail else .err .syntax
      else (rhs e ts).andThen fun a r' =>
        if (peek r').isSep .colon then
          if c.rules.optSlice then sliceEnd rhs e t a r'.tail else .err .syntax
        else assume .squareClose r' fun r'' => .ok (.refine true t a) r'' := by
  have : (peek (⟨.op .tri, b⟩ :: ts)).isOp .tri = true := rfl
  unfold refExpr
  simp [this]

theorem rhs_head {x : Ctx} {o w : Bool} {pre rest : Toks} {t : Ast} (h : G c.dial .rhs x o w pre t) :
    (peek (pre ++ rest)).kind ≠ .op .tri ∧ (peek (pre ++ rest)).isSep .squareClose = false ∧
      (peek (pre ++ rest)).isSep .colon = false ∧ (peek (pre ++ rest)).isSep .parenClose = false :=
  ⟨starts_not_sep (begins h) rfl, isSep_ne (starts_not_sep (begins h) rfl),
    isSep_ne (starts_not_sep (begins h) rfl), isSep_ne (starts_not_sep (begins h) rfl)⟩

/-- The position and the end of a slice. -/
theorem slice_found (hr : Complete c rhs n) {e : Env} (he : e.outer = false) {x : Ctx}
    {as bs rest : Toks} {t a y : Ast} {b b' : Bool} {k : Ast → Toks → Res Ast}
    (hx : e.ctx = x) (hn : as.length + bs.length < n) (hd : e.depth + as.length + bs.length + 1 ≤ d)
    (h : G c.dial .bound x false false as a) (h' : G c.dial .bound x false false bs y) :
    OkOr c d
      (if (peek (as ++ ⟨.sep .colon, b⟩ :: (bs ++ ⟨.sep .squareClose, b'⟩ :: rest))).isSep
          .squareClose then .err .syntax
        else if (peek (as ++ ⟨.sep .colon, b⟩ :: (bs ++ ⟨.sep .squareClose, b'⟩ :: rest))).isSep
          .colon then sliceEnd rhs e t .void
            (as ++ ⟨.sep .colon, b⟩ :: (bs ++ ⟨.sep .squareClose, b'⟩ :: rest)).tail
        else (rhs e (as ++ ⟨.sep .colon, b⟩ :: (bs ++ ⟨.sep .squareClose, b'⟩ :: rest))).andThen
          fun a r' => if (peek r').isSep .colon then sliceEnd rhs e t a r'.tail else k a r')
      (.slice t a y) rest := by
  cases h with
  | bound0 =>
    change OkOr c d (sliceEnd rhs e t .void (bs ++ ⟨.sep .squareClose, b'⟩ :: rest)) _ _
    exact bound_found hr he hx (by omega) (by omega) h'
  | bound h =>
    obtain ⟨-, h2, h3, -⟩ := rhs_head h
      (rest := ⟨.sep .colon, b⟩ :: (bs ++ ⟨.sep .squareClose, b'⟩ :: rest))
    rw [h2, h3]
    simp only [Bool.false_eq_true, if_false]
    refine (hr hx he (by omega) (by omega) h (by exact Nat.lt_succ_self 6)).andThen ?_
    change OkOr c d (sliceEnd rhs e t a (bs ++ ⟨.sep .squareClose, b'⟩ :: rest)) _ _
    exact bound_found hr he hx (by omega) (by omega) h'

theorem invocation_found (hr : Complete c rhs n) {e : Env} (he : e.outer = false) {x : Ctx}
    {as rest : Toks} {t g : Ast} {l : List Ast} {b : Bool}
    (hx : e.ctx = x) (hn : as.length < n) (hd : e.depth + as.length + 1 ≤ d)
    (hc : Called x t g) (h : G c.dial .args x false false as (many l)) :
    OkOr c d (invocation rhs e t (as ++ ⟨.sep .parenClose, b⟩ :: rest)) (.call g l) rest := by
  subst hx
  have hdel : Delim (⟨.sep .parenClose, b⟩ :: rest) := ⟨_, _, _, rfl, by simp⟩
  unfold invocation
  rw [callee_iff.2 hc]
  dsimp only
  generalize ht : many l = tt at h
  cases h with
  | args0 =>
    obtain rfl := many_inj ht
    exact .ok
  | args h =>
    subst ht
    obtain ⟨tk, r, h1, h2, h3⟩ := args_not_named _ (rest := ⟨.sep .parenClose, b⟩ :: rest)
      (Nat.le_refl _) h (by simp [peek])
    have h4 : (peek (as ++ ⟨.sep .parenClose, b⟩ :: rest)).isSep .parenClose = false := by
      rw [h1]
      refine isSep_ne fun h5 => ?_
      change tk.kind = _ at h5
      rw [h5] at h2; cases h2
    have h5 : (isIdent (peek (as ++ ⟨.sep .parenClose, b⟩ :: rest)).kind &&
        (peek (as ++ ⟨.sep .parenClose, b⟩ :: rest).tail).isOp .set) = false := by
      rw [h1]
      change (isIdent tk.kind && (peek (r ++ ⟨.sep .parenClose, b⟩ :: rest)).isOp .set) = false
      cases hi : isIdent tk.kind with
      | false => rfl
      | true => rw [isOp_ne (h3 hi)]; rfl
    rw [h4, h5]
    simp only [Bool.false_eq_true, if_false]
    exact args_reach hr he g hn hd h _ (Nat.lt_succ_self _)
  | @argsNamed _ _ _ l' h =>
    obtain rfl := many_inj ht
    obtain ⟨y, b1, b2, r, h1⟩ : ∃ y b1 b2 r, as = ⟨.ident y, b1⟩ :: ⟨.op .set, b2⟩ :: r := by
      have : ∀ (m : Nat) (as : Toks) (t : Ast), as.length ≤ m →
          G c.dial .named e.ctx false false as t →
          ∃ y b1 b2 r, as = ⟨.ident y, b1⟩ :: ⟨.op .set, b2⟩ :: r := by
        intro m
        induction m with
        | zero =>
          intro as t hm h
          cases h with
          | named1 => simp at hm
          | named => simp at hm
        | succ m ih =>
          intro as t hm h
          cases h with
          | named1 => exact ⟨_, _, _, _, rfl⟩
          | named x b b' b'' h h' =>
            simp only [List.length_append, List.length_cons] at hm
            obtain ⟨y, b1, b2, r, rfl⟩ := ih _ _ (by omega) h
            exact ⟨_, _, _, _, rfl⟩
      exact this _ _ _ (Nat.le_refl _) h
    obtain ⟨l2, h2, h3⟩ := named_reach hr he g (L := l') (rest := rest) hn hd _ _ _ _ (Nat.le_refl _)
      (Nat.le_refl _) h hdel
    obtain rfl := many_inj h2
    have h4 : (peek (as ++ ⟨.sep .parenClose, b⟩ :: rest)).isSep .parenClose = false := by
      rw [h1]; rfl
    have h5 : (isIdent (peek (as ++ ⟨.sep .parenClose, b⟩ :: rest)).kind &&
        (peek (as ++ ⟨.sep .parenClose, b⟩ :: rest).tail).isOp .set) = true := by
      rw [h1]; rfl
    rw [h4, h5]
    simp only [Bool.false_eq_true, if_false, if_true]
    exact h3 (fun f _ => .ok) _ (Nat.lt_succ_self _)

/-- Reading a member expression leads to the loop of `member_expr` behind it. -/
theorem member_reach (hr : Complete c rhs n) (hemp : c.dial.emptyProps = false) {e : Env}
    {x : Ctx} {o : Bool} {T : Ast} {R : Toks} (hx : e.ctx = x) (ho : e.outer = o) :
    ∀ (m : Nat) (w : Bool) (pre : Toks) (t : Ast) (rest : Toks), pre.length ≤ m →
      pre.length ≤ n → e.depth + pre.length ≤ d → G c.dial .member x o w pre t →
      Stop 0 w rest →
      (∀ f, rest.length < f → OkOr c d (memberLoop c rhs e.inner f t rest) T R) →
      OkOr c d (member c rhs e (pre ++ rest)) T R := by
  have hi := e.inner_outer
  have hix : e.inner.ctx = x := hx
  have hid : e.inner.depth = e.depth := rfl
  have hio : (e.inner.unary == 1) = o := by rw [← ho]; simp [Env.inner, Env.outer]
  intro m
  induction m with
  | zero =>
    intro w pre t rest hm hn hd h
    have : pre = [] := List.length_eq_zero_iff.1 (by omega)
    subst this
    obtain ⟨_, _, h, -⟩ := begins h
    cases h
  | succ m ih =>
    intro w pre t rest hm hn hd h hs hk
    cases h with
    | member h =>
      exact (primary_found hr hemp hx hn hd h hs).andThen (hk _ (Nat.lt_succ_self _))
    | @dot _ _ ts t k b b' h hname =>
      simp only [List.length_append, List.length_cons, List.length_nil] at hm hn hd
      rw [List.append_assoc]
      refine ih false ts t _ (by omega) (by omega) (by omega) h (Stop.op (by decide)) ?_
      intro f hf
      cases f with
      | zero => cases hf
      | succ f =>
        have : refIdent t (⟨k, b'⟩ :: rest) = .ok (.refine false t (.str k)) rest := by
          cases hname <;> rfl
        change OkOr c d ((refIdent t (⟨k, b'⟩ :: rest)).andThen _) _ _
        rw [this]
        exact hk f (by simp at hf; omega)
    | @optDot _ _ ts t k b b' b'' h hname =>
      simp only [List.length_append, List.length_cons, List.length_nil] at hm hn hd
      rw [List.append_assoc]
      refine ih false ts t _ (by omega) (by omega) (by omega) h (Stop.op (by decide)) ?_
      intro f hf
      cases f with
      | zero => cases hf
      | succ f =>
        have : refIdent t (⟨.op .tri, b'⟩ :: ⟨k, b''⟩ :: rest)
            = .ok (.refine true t (.str k)) rest := by
          cases hname <;> rfl
        change OkOr c d ((refIdent t (⟨.op .tri, b'⟩ :: ⟨k, b''⟩ :: rest)).andThen _) _ _
        rw [this]
        exact hk f (by simp at hf; omega)
    | @index _ _ w ts t ks k b b' h hfit h' =>
      simp only [List.length_append, List.length_cons, List.length_nil] at hm hn hd
      rw [List.append_assoc, List.append_assoc]
      refine ih false ts t _ (by omega) (by omega) (by omega) h (Stop.op (by decide)) ?_
      intro f hf
      cases f with
      | zero => cases hf
      | succ f =>
        change OkOr c d (if (b && e.inner.unary == 1) = true then _ else
          (refExpr c rhs e.inner t (ks ++ ⟨.sep .squareClose, b'⟩ :: rest)).andThen _) _ _
        rw [hfit.not hio]
        simp only [Bool.false_eq_true, if_false]
        obtain ⟨h1, h2, h3, -⟩ := rhs_head h' (rest := ⟨.sep .squareClose, b'⟩ :: rest)
        rw [refExpr_plain h1, h2, h3]
        simp only [Bool.false_eq_true, if_false]
        refine OkOr.andThen (a := .refine false t k) (r := rest)
          ((hr hix hi (by omega) (by omega) h' (by exact Nat.lt_succ_self 6)).andThen .ok)
          (hk f (by simp at hf; omega))
    | @optIndex _ _ w ts t ks k b b' b'' h hfit h' =>
      simp only [List.length_append, List.length_cons, List.length_nil] at hm hn hd
      rw [List.append_assoc, List.append_assoc]
      refine ih false ts t _ (by omega) (by omega) (by omega) h (Stop.op (by decide)) ?_
      intro f hf
      cases f with
      | zero => cases hf
      | succ f =>
        change OkOr c d (if (b && e.inner.unary == 1) = true then _ else
          (refExpr c rhs e.inner t (⟨.op .tri, b'⟩ :: (ks ++ ⟨.sep .squareClose, b''⟩ :: rest))).andThen
            _) _ _
        rw [hfit.not hio]
        simp only [Bool.false_eq_true, if_false]
        obtain ⟨-, h2, h3, -⟩ := rhs_head h' (rest := ⟨.sep .squareClose, b''⟩ :: rest)
        rw [refExpr_opt, h2, h3]
        simp only [Bool.false_eq_true, if_false]
        refine OkOr.andThen (a := .refine true t k) (r := rest)
          ((hr hix hi (by omega) (by omega) h' (by exact Nat.lt_succ_self 6)).andThen .ok)
          (hk f (by simp at hf; omega))
    | @slice _ _ ts t as a bs y b b' b'' h hfit h1 h2 =>
      simp only [List.length_append, List.length_cons, List.length_nil] at hm hn hd
      rw [List.append_assoc, List.append_assoc, List.append_assoc]
      refine ih false ts t _ (by omega) (by omega) (by omega) h (Stop.op (by decide)) ?_
      intro f hf
      cases f with
      | zero => cases hf
      | succ f =>
        change OkOr c d (if (b && e.inner.unary == 1) = true then _ else
          (refExpr c rhs e.inner t
            (as ++ ⟨.sep .colon, b'⟩ :: (bs ++ ⟨.sep .squareClose, b''⟩ :: rest))).andThen _) _ _
        rw [hfit.not hio]
        simp only [Bool.false_eq_true, if_false]
        have h3 : (peek (as ++ ⟨.sep .colon, b'⟩ ::
            (bs ++ ⟨.sep .squareClose, b''⟩ :: rest))).kind ≠ .op .tri := by
          cases h1 with
          | bound0 => exact nofun
          | bound h1 => exact (rhs_head h1).1
        rw [refExpr_plain h3]
        exact OkOr.andThen (slice_found hr hi hix (by omega) (by omega) h1 h2)
          (hk f (by simp at hf; omega))
    | @optSlice _ _ ts t as a bs y b b' b'' b3 hos h hfit h1 h2 =>
      simp only [List.length_append, List.length_cons, List.length_nil] at hm hn hd
      rw [List.append_assoc, List.append_assoc, List.append_assoc]
      refine ih false ts t _ (by omega) (by omega) (by omega) h (Stop.op (by decide)) ?_
      intro f hf
      cases f with
      | zero => cases hf
      | succ f =>
        change OkOr c d (if (b && e.inner.unary == 1) = true then _ else
          (refExpr c rhs e.inner t (⟨.op .tri, b3⟩ ::
            (as ++ ⟨.sep .colon, b'⟩ :: (bs ++ ⟨.sep .squareClose, b''⟩ :: rest)))).andThen _) _ _
        rw [hfit.not hio]
        simp only [Bool.false_eq_true, if_false]
        have hos : c.rules.optSlice = true := hos
        rw [refExpr_opt]
        simp only [hos, if_true]
        exact OkOr.andThen (slice_found hr hi hix (by omega) (by omega) h1 h2)
          (hk f (by simp at hf; omega))
    | @call _ _ ts t g as l b b' h hcal hfit h' =>
      simp only [List.length_append, List.length_cons, List.length_nil] at hm hn hd
      rw [List.append_assoc, List.append_assoc]
      refine ih false ts t _ (by omega) (by omega) (by omega) h (Stop.op (by decide)) ?_
      intro f hf
      cases f with
      | zero => cases hf
      | succ f =>
        change OkOr c d (if (b && e.inner.unary == 1) = true then _ else
          (invocation rhs e.inner t (as ++ ⟨.sep .parenClose, b'⟩ :: rest)).andThen _) _ _
        rw [hfit.not hio]
        simp only [Bool.false_eq_true, if_false]
        exact OkOr.andThen (invocation_found hr hi hix (by omega) (by omega) hcal h')
          (hk f (by simp at hf; omega))

theorem member_found (hr : Complete c rhs n) (hemp : c.dial.emptyProps = false) {e : Env}
    {x : Ctx} {o w : Bool} {pre rest : Toks} {t : Ast} (hx : e.ctx = x) (ho : e.outer = o)
    (hn : pre.length ≤ n) (hd : e.depth + pre.length ≤ d) (h : G c.dial .member x o w pre t)
    (hs : Stop 1 w rest) : OkOr c d (member c rhs e (pre ++ rest)) t rest := by
  refine member_reach hr hemp hx ho _ w pre t rest (Nat.le_refl _) hn hd h (hs.mono (by omega)) ?_
  intro f hf
  cases f with
  | zero => cases hf
  | succ f =>
    have h1 : (peek rest).kind ≠ .op .dot := fun h => by
      have := hs.1; rw [h] at this; exact absurd this (by decide)
    have h2 : (peek rest).kind ≠ .sep .squareOpen := fun h => by
      have := hs.1; rw [h] at this; exact absurd this (by decide)
    have h3 : (peek rest).kind ≠ .sep .parenOpen := fun h => by
      have := hs.1; rw [h] at this; exact absurd this (by decide)
    unfold memberLoop
    rw [isOp_ne h1, isSep_ne h2, isSep_ne h3]
    exact .ok

/-- A parser finds the phrases of a category with at most `n` tokens. -/
def Finds (c : Cfg) (n : Nat) (cat : Cat) (l : Nat) (p : P) : Prop :=
  ∀ {d : Nat} {e : Env} {x : Ctx} {o w : Bool} {pre : Toks} {t : Ast} {rest : Toks},
    e.ctx = x → e.outer = o → pre.length ≤ n → e.depth + pre.length ≤ d →
    G c.dial cat x o w pre t → Stop l w rest → OkOr c d (p e (pre ++ rest)) t rest

theorem unary_found (hr : Complete c rhs n) (hemp : c.dial.emptyProps = false) :
    ∀ f, Finds c (min n f) .unary 1 (unary c rhs (f + 1)) := by
  intro f
  induction f with
  | zero =>
    intro d e x o w pre t rest hx ho hn hd h hs
    have : pre = [] := List.length_eq_zero_iff.1 (by omega)
    subst this
    obtain ⟨_, _, h, -⟩ := begins h
    cases h
  | succ f ih =>
    intro d e x o w pre t rest hx ho hn hd h hs
    cases h with
    | unary0 h =>
      have hu : isUnary (peek (pre ++ rest)) = false := by
        obtain ⟨tk, r, rfl, h2, -⟩ := begins h
        rw [Bool.eq_false_iff]
        intro h3
        have h3 := (isUnary_iff _).1 h3
        change tk.kind ∈ _ at h3
        simp only [unaryOps, List.mem_cons, List.not_mem_nil, or_false] at h3
        rcases h3 with h3 | h3 | h3 | h3 | h3 | h3 <;> rw [h3] at h2 <;> cases h2
      unfold unary
      rw [hu]
      simp only [Bool.false_eq_true, if_false]
      exact member_found hr hemp hx ho (by omega) hd h hs
    | @unary _ _ _ ts t k b hk h =>
      have hu : isUnary (peek (⟨k, b⟩ :: ts ++ rest)) = true := (isUnary_iff _).2 hk
      unfold unary
      rw [hu]
      simp only [if_true]
      simp only [List.length_cons] at hn hd
      refine OkOr.deeper (by omega) ?_
      refine OkOr.andThen (ih (pre := ts) (x := x) ?_ ?_ (by omega) ?_ h hs) .ok
      · split <;> exact hx
      · rw [← ho]
        split
        · next hu => simp [Env.inner, Env.outer, Cfg.dial, hu]
        · next hu => simp [Env.outer, Cfg.dial, hu]
      · split
        · simp [Env.inner]; omega
        · dsimp only; omega

theorem unaryP_found (hr : Complete c rhs n) (hemp : c.dial.emptyProps = false) :
    Finds c n .unary 1 (unaryP c rhs) := by
  intro d e x o w pre t rest hx ho hn hd h hs
  refine unary_found hr hemp (pre ++ rest).length hx ho ?_ hd h hs
  simp only [List.length_append]
  omega

end

end Verif.Expr
