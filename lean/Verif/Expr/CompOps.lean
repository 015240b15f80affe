import Verif.Expr.CompMember

/-!
# The parser finds every phrase of the grammar: operators
-/

namespace Verif.Expr

theorem level_mul {k : Kind} (h : k ∈ mulOps) : level k = 2 := by
  simp only [mulOps, List.mem_cons, List.not_mem_nil, or_false] at h
  rcases h with rfl | rfl | rfl <;> rfl

theorem level_add {k : Kind} (h : k ∈ addOps) : level k = 2 := by
  simp only [addOps, List.mem_cons, List.not_mem_nil, or_false] at h
  rcases h with rfl | rfl <;> rfl

theorem level_bit {k : Op} (h : k ∈ bitOps) : level (.op k) = 2 := by
  simp only [bitOps, List.mem_cons, List.not_mem_nil, or_false] at h
  rcases h with rfl | rfl | rfl <;> rfl

theorem level_shift {k : Kind} (h : k ∈ shiftOps) : level k = 2 := by
  simp only [shiftOps, List.mem_cons, List.not_mem_nil, or_false] at h
  rcases h with rfl | rfl | rfl <;> rfl

theorem level_cmp {k : Kind} (h : k ∈ cmpOps) : level k = 3 := by
  simp only [cmpOps, List.mem_cons, List.not_mem_nil, or_false] at h
  rcases h with rfl | rfl | rfl | rfl | rfl | rfl | rfl <;> rfl

theorem level_swap {k : Kind} (h : k ∈ swapOps) : level k = 3 := by
  simp only [swapOps, List.mem_cons, List.not_mem_nil, or_false] at h
  rcases h with rfl | rfl <;> rfl

theorem level_logic {k : Op} (h : k ∈ logicOps) : level (.op k) = 4 := by
  simp only [logicOps, List.mem_cons, List.not_mem_nil, or_false] at h
  rcases h with rfl | rfl <;> rfl

theorem mul_not_add {k : Kind} (h : k ∈ mulOps) : k ∉ addOps := by
  simp only [mulOps, List.mem_cons, List.not_mem_nil, or_false] at h
  rcases h with rfl | rfl | rfl <;> decide

theorem add_not_mul {k : Kind} (h : k ∈ addOps) : k ∉ mulOps := fun h' => mul_not_add h' h

theorem isAdd_iff (t : Tok) : (t.isOp .add || t.isOp .sub) = true ↔ t.kind ∈ addOps := by
  simp [Tok.isOp, addOps]

theorem isAdd_false {t : Tok} (h : t.kind ∉ addOps) : (t.isOp .add || t.isOp .sub) = false := by
  rw [Bool.eq_false_iff]
  exact fun h' => h ((isAdd_iff t).1 h')

section
variable {c : Cfg} {d n : Nat} {un : P}

/-- `arithm_bitwise_expr` behind the first operand. -/
def arTail (c : Cfg) (un : P) (e : Env) (x : Ast) (r : Toks) : Res Ast :=
  if (peek r).op &&& 0x80 ≠ 0 then
    if ((peek r).isOp .add || (peek r).isOp .sub) && badEol e (peek r) then .err .syntax
    else (un e r.tail).andThen fun y r' =>
      arLoop c un (r'.length + 1) e ⟨(peek r).kind, x, y, (peek r).op⟩ r'
  else if (peek r).op &&& 0xF8 = 0x20 then bitLoop c un (peek r).op (r.length + 1) e x r
  else if (peek r).isOp .shl || (peek r).isOp .shr || (peek r).isOp .shru then
    (un e r.tail).andThen fun y r' => .ok (.oper (peek r).kind [x, y]) r'
  else .ok x r

theorem arith_eq (e : Env) (ts : Toks) :
    arith c un e ts = (un e ts).andThen fun x r => arTail c un e x r := rfl

/-- In the state `a`, in one of the two loops, with `rest` in front, the result will be `T`.
`D` bounds the depth. -/
def Going (c : Cfg) (un : P) (d : Nat) (x : Ctx) (o : Bool) (D : Nat) (a : Ar) (rest : Toks)
    (T : Ast) (R : Toks) : Prop :=
  (∀ f e, rest.length < f → e.ctx = x → e.outer = o → e.depth + 1 ≤ D →
    OkOr c d (arLoop c un f e a rest) T R) ∧
  ∀ f f2 e e2, rest.length < f → rest.length < f2 → e.ctx = x → e.outer = o → e.depth + 1 ≤ D →
    e2.ctx = x → e2.outer = o → e2.depth + 1 ≤ D →
    OkOr c d ((mulLoop c un f2 e2 a rest).andThen fun a' r => arLoop c un f e a' r) T R

/-- The state behind another factor. -/
def Ar.times (a : Ar) (k : Kind) (y : Ast) : Ar :=
  if a.last &&& 0xF8 = 0x88 then ⟨k, a.tree, y, k.code⟩
  else ⟨a.op, a.left, .oper k [a.node, y], a.last⟩

theorem mulLoop_step {f : Nat} {e : Env} {a : Ar} {k : Kind} {b : Bool} {ts : Toks}
    (hk : k ∈ mulOps) :
    mulLoop c un (f + 1) e a (⟨k, b⟩ :: ts) = deeper c e fun e' =>
      (un e' ts).andThen fun y r => mulLoop c un f e' (a.times k y) r := by
  have h : (peek (⟨k, b⟩ :: ts)).op &&& 0xF8 = 0x88 := (code_mul k).2 hk
  have hp : peek (⟨k, b⟩ :: ts) = ⟨k, b⟩ := rfl
  rw [mulLoop, if_pos h]
  unfold Ar.times
  congr 1
  funext e'
  change (un e' ts).andThen _ = _
  congr 1
  funext y r
  by_cases hl : a.last &&& 0xF8 = 0x88
  · rw [if_pos hl, if_pos hl, hp]; simp only [Tok.op]; rfl
  · rw [if_neg hl, if_neg hl, hp]

theorem mulLoop_end {f : Nat} {e : Env} {a : Ar} {ts : Toks} (hk : (peek ts).kind ∉ mulOps) :
    mulLoop c un (f + 1) e a ts = .ok a ts := by
  have h : ¬(peek ts).op &&& 0xF8 = 0x88 := fun h => hk ((code_mul _).1 h)
  unfold mulLoop
  rw [if_neg h]

theorem going_mul (hu : Finds c n .unary 1 un) {x : Ctx} {o w : Bool} {D : Nat} {a : Ar} {k : Kind}
    {b : Bool} {bs rest : Toks} {y T : Ast} {R : Toks} (hk : k ∈ mulOps) (hn : bs.length ≤ n)
    (hD : D + 1 + bs.length ≤ d) (h : G c.dial .unary x o w bs y) (hs : Stop 1 w rest)
    (hg : Going c un d x o (D + 1 + bs.length) (a.times k y) rest T R) :
    Going c un d x o D a (⟨k, b⟩ :: bs ++ rest) T R := by
  have hpos : 1 ≤ bs.length := by
    obtain ⟨_, _, rfl, -⟩ := begins h
    simp
  have second : ∀ f f2 e e2, rest.length < f → (⟨k, b⟩ :: bs ++ rest).length < f2 → e.ctx = x →
      e.outer = o → e.depth ≤ D → e2.ctx = x → e2.outer = o → e2.depth ≤ D →
      OkOr c d ((mulLoop c un f2 e2 a (⟨k, b⟩ :: bs ++ rest)).andThen
        fun a' r => arLoop c un f e a' r) T R := by
    intro f f2 e e2 hf hf2 hx ho hd hx2 ho2 hd2
    cases f2 with
    | zero => cases hf2
    | succ f2 =>
      rw [List.cons_append, mulLoop_step hk]
      simp only [List.length_append, List.length_cons] at hf2
      have hux : OkOr c d (un { e2 with depth := e2.depth + 1 } (bs ++ rest)) y rest :=
        hu hx2 ho2 hn (by dsimp only; omega) h hs
      have hgo := hg.2 f f2 e { e2 with depth := e2.depth + 1 } hf (by omega) hx ho (by omega)
        hx2 ho2 (by dsimp only; omega)
      unfold deeper
      split
      · exact .inr ⟨rfl, by omega⟩
      · rcases hux with hux | ⟨hux, hm⟩
        · dsimp only; rw [hux]; exact hgo
        · dsimp only; rw [hux]; exact .inr ⟨rfl, hm⟩
  refine ⟨fun f e hf hx ho hd => ?_, fun f f2 e e2 hf hf2 hx ho hd hx2 ho2 hd2 => ?_⟩
  · cases f with
    | zero => cases hf
    | succ f =>
      have h1 : ((peek (⟨k, b⟩ :: bs ++ rest)).isOp .add || (peek (⟨k, b⟩ :: bs ++ rest)).isOp .sub)
          = false := isAdd_false (mul_not_add hk)
      have h2 : (peek (⟨k, b⟩ :: bs ++ rest)).op &&& 0xF8 = 0x88 := (code_mul k).2 hk
      unfold arLoop
      refine OkOr.deeper (by omega) ?_
      rw [h1]
      simp only [Bool.false_eq_true, if_false]
      rw [if_pos h2]
      simp only [List.length_append, List.length_cons] at hf
      exact second f _ _ _ (by omega) (Nat.lt_succ_self _) hx ho (by dsimp only; omega) hx ho
        (by dsimp only; omega)
  · simp only [List.length_append, List.length_cons] at hf
    exact second f f2 e e2 (by omega) hf2 hx ho (by omega) hx2 ho2 (by omega)

/-- Where no factor follows, only one of the loops matters. -/
theorem going_outer {x : Ctx} {o : Bool} {D : Nat} {a : Ar} {rest : Toks} {T : Ast} {R : Toks}
    (hk : (peek rest).kind ∉ mulOps)
    (h : ∀ f e, rest.length < f → e.ctx = x → e.outer = o → e.depth + 1 ≤ D →
      OkOr c d (arLoop c un f e a rest) T R) : Going c un d x o D a rest T R := by
  refine ⟨h, fun f f2 e e2 hf hf2 hx ho hd _ _ _ => ?_⟩
  cases f2 with
  | zero => cases hf2
  | succ f2 =>
    rw [mulLoop_end hk]
    exact h f e hf hx ho hd

theorem Fits.badEol {e : Env} {o : Bool} {k : Kind} {b : Bool} (h : Fits o ⟨k, b⟩)
    (ho : e.outer = o) : badEol e ⟨k, b⟩ = false := by
  change (b && e.outer) = false
  rw [ho]
  cases b
  · rfl
  · cases o
    · rfl
    · exact absurd ⟨rfl, rfl⟩ h

theorem going_add (hu : Finds c n .unary 1 un) {x : Ctx} {o w : Bool} {D : Nat} {a : Ar} {k : Kind}
    {b : Bool} {bs rest : Toks} {y T : Ast} {R : Toks} (hk : k ∈ addOps) (hfit : Fits o ⟨k, b⟩)
    (hn : bs.length ≤ n) (hD : D + 1 + bs.length ≤ d) (h : G c.dial .unary x o w bs y)
    (hs : Stop 1 w rest)
    (hg : Going c un d x o (D + 1 + bs.length) ⟨k, a.tree, y, k.code⟩ rest T R) :
    Going c un d x o D a (⟨k, b⟩ :: bs ++ rest) T R := by
  refine going_outer (add_not_mul hk) fun f e hf hx ho hd => ?_
  cases f with
  | zero => cases hf
  | succ f =>
    have h1 : ((peek (⟨k, b⟩ :: bs ++ rest)).isOp .add || (peek (⟨k, b⟩ :: bs ++ rest)).isOp .sub)
        = true := (isAdd_iff _).2 hk
    have h2 : Expr.badEol e (peek (⟨k, b⟩ :: bs ++ rest)) = false := hfit.badEol ho
    unfold arLoop
    refine OkOr.deeper (by omega) ?_
    rw [h1, h2]
    simp only [Bool.false_eq_true, if_false, if_true]
    simp only [List.length_append, List.length_cons] at hf
    refine OkOr.andThen (hu (pre := bs) (rest := rest) (x := x) hx ho hn (by dsimp only; omega) h hs) ?_
    exact hg.1 f _ (by omega) hx ho (by dsimp only; omega)

theorem level_cases {k : Kind} (h : 2 < level k) :
    k ∉ mulOps ∧ k ∉ addOps ∧ (∀ o ∈ bitOps, k ≠ .op o) ∧ k ∉ shiftOps := by
  refine ⟨fun h' => ?_, fun h' => ?_, fun o ho h' => ?_, fun h' => ?_⟩
  · rw [level_mul h'] at h; omega
  · rw [level_add h'] at h; omega
  · rw [h', level_bit ho] at h; omega
  · rw [level_shift h'] at h; omega

theorem notBit {t : Tok} (h : ∀ o ∈ bitOps, t.kind ≠ .op o) : ¬t.op &&& 0xF8 = 0x20 := fun h' => by
  obtain ⟨o, h1, h2⟩ := (code_bit _).1 h'
  exact h o h1 h2

theorem going_end {x : Ctx} {o : Bool} {D : Nat} {a : Ar} {rest : Toks}
    (hD : D ≤ d) (hs : 2 < level (peek rest).kind) :
    Going c un d x o D a rest a.tree rest := by
  obtain ⟨h1, h2, h3, -⟩ := level_cases hs
  refine going_outer h1 fun f e hf hx ho hd => ?_
  cases f with
  | zero => cases hf
  | succ f =>
    have h4 : ¬(peek rest).op &&& 0xF8 = 0x88 := fun h => h1 ((code_mul _).1 h)
    unfold arLoop
    refine OkOr.deeper (by omega) ?_
    rw [isAdd_false h2]
    simp only [Bool.false_eq_true, if_false]
    rw [if_neg h4, if_neg (notBit h3)]
    exact .ok

/-- Behind a phrase with the tree `t`: it was the first operand, or the state has this tree. -/
def Cont (c : Cfg) (un : P) (d : Nat) (e : Env) (x : Ctx) (o : Bool) (mulOnly : Bool) (D : Nat)
    (t : Ast) (rest : Toks) (T : Ast) (R : Toks) : Prop :=
  OkOr c d (arTail c un e t rest) T R ∧
  ∀ a : Ar, a.tree = t → (mulOnly = true → a.last &&& 0xF8 = 0x88) → Going c un d x o D a rest T R

theorem arTail_op {e : Env} {x : Ast} {k : Kind} {b : Bool} {ts : Toks}
    (hk : k ∈ mulOps ∨ k ∈ addOps ∧ badEol e ⟨k, b⟩ = false) :
    arTail c un e x (⟨k, b⟩ :: ts) = (un e ts).andThen fun y r' =>
      arLoop c un (r'.length + 1) e ⟨k, x, y, k.code⟩ r' := by
  have h1 : (peek (⟨k, b⟩ :: ts)).op &&& 0x80 ≠ 0 :=
    (code_arith k).2 (hk.imp id And.left)
  have h2 : (((peek (⟨k, b⟩ :: ts)).isOp .add || (peek (⟨k, b⟩ :: ts)).isOp .sub) &&
      Expr.badEol e (peek (⟨k, b⟩ :: ts))) = false := by
    rcases hk with hk | ⟨-, hk⟩
    · rw [isAdd_false (mul_not_add hk)]; rfl
    · change (_ && Expr.badEol e ⟨k, b⟩) = false
      rw [hk, Bool.and_false]
  unfold arTail
  rw [if_pos h1, h2]
  rfl

/-- Another factor behind the first term. -/
theorem cont_mul (hu : Finds c n .unary 1 un) {e : Env} {x : Ctx} {o w : Bool} {D : Nat} {t : Ast}
    {k : Kind} {b : Bool} {bs rest : Toks} {y T : Ast} {R : Toks} (hx : e.ctx = x)
    (ho : e.outer = o) (he : e.depth ≤ D) (hk : k ∈ mulOps) (hn : bs.length ≤ n)
    (hD : D + 1 + bs.length ≤ d) (h : G c.dial .unary x o w bs y) (hs : Stop 1 w rest)
    (hg : Cont c un d e x o true (D + 1 + bs.length) (.oper k [t, y]) rest T R) :
    Cont c un d e x o true D t (⟨k, b⟩ :: bs ++ rest) T R := by
  refine ⟨?_, fun a ha hm => ?_⟩
  · rw [List.cons_append, arTail_op (.inl hk)]
    refine OkOr.andThen (hu (pre := bs) (rest := rest) hx ho hn (by omega) h hs) ?_
    exact (hg.2 ⟨k, t, y, k.code⟩ rfl fun _ => (code_mul k).2 hk).1 _ e (Nat.lt_succ_self _) hx ho
      (by omega)
  · refine going_mul hu hk hn hD h hs ?_
    unfold Ar.times
    rw [if_pos (hm rfl), ha]
    exact hg.2 _ rfl fun _ => (code_mul k).2 hk

theorem add_last {k : Kind} (h : k ∈ addOps) : ¬k.code &&& 0xF8 = 0x88 :=
  fun h' => add_not_mul h ((code_mul k).1 h')

/-- A term behind `+` or `-`. -/
theorem cont_add (hu : Finds c n .unary 1 un) {e : Env} {x : Ctx} {o : Bool} {D : Nat} {t : Ast}
    {k : Kind} {b : Bool} {T : Ast} {R : Toks} (hx : e.ctx = x)
    (ho : e.outer = o) (he : e.depth ≤ D) (hk : k ∈ addOps) (hfit : Fits o ⟨k, b⟩) :
    ∀ (m : Nat) (w : Bool) (bs : Toks) (y : Ast) (rest : Toks), bs.length ≤ m → bs.length ≤ n →
      D + 1 + bs.length ≤ d → G c.dial .mul x o w bs y → Stop 1 w rest →
      Going c un d x o (D + 1 + bs.length) ⟨k, t, y, k.code⟩ rest T R →
      Cont c un d e x o false D t (⟨k, b⟩ :: bs ++ rest) T R := by
  intro m
  induction m with
  | zero =>
    intro w bs y rest hm hn hD h
    have : bs = [] := List.length_eq_zero_iff.1 (by omega)
    subst this
    obtain ⟨_, _, h, -⟩ := begins h
    cases h
  | succ m ih =>
    intro w bs y rest hm hn hD h hs hg
    cases h with
    | mul0 h =>
      refine ⟨?_, fun a ha _ => ?_⟩
      · rw [List.cons_append, arTail_op (.inr ⟨hk, hfit.badEol ho⟩)]
        refine OkOr.andThen (hu (pre := bs) (rest := rest) hx ho hn (by omega) h hs) ?_
        exact hg.1 _ e (Nat.lt_succ_self _) hx ho (by omega)
      · subst ha
        exact going_add hu hk hfit hn hD h hs hg
    | @mul _ _ _ as y1 k' bs' y2 b' h hk' h' =>
      simp only [List.length_append, List.length_cons] at hm hn hD
      rw [← List.cons_append, List.append_assoc]
      refine ih false as y1 (⟨k', b'⟩ :: bs' ++ rest) (by omega) (by omega) (by omega) h
        (Stop.op (by rw [level_mul hk']; omega)) ?_
      refine going_mul hu hk' (by omega) (by omega) h' hs ?_
      unfold Ar.times
      rw [if_neg (add_last hk)]
      simp only [List.length_append, List.length_cons] at hg
      rw [show D + 1 + as.length + 1 + bs'.length = D + 1 + (as.length + (bs'.length + 1)) by omega]
      exact hg

theorem mul_reach (hu : Finds c n .unary 1 un) {e : Env} {x : Ctx} {o : Bool}
    {T : Ast} {R : Toks} (hx : e.ctx = x) (ho : e.outer = o) :
    ∀ (m : Nat) (w : Bool) (pre : Toks) (t : Ast) (rest : Toks), pre.length ≤ m → pre.length ≤ n →
      e.depth + pre.length ≤ d → G c.dial .mul x o w pre t → Stop 1 w rest →
      Cont c un d e x o true (e.depth + pre.length) t rest T R →
      OkOr c d (arith c un e (pre ++ rest)) T R := by
  intro m
  induction m with
  | zero =>
    intro w pre t rest hm hn hD h
    have : pre = [] := List.length_eq_zero_iff.1 (by omega)
    subst this
    obtain ⟨_, _, h, -⟩ := begins h
    cases h
  | succ m ih =>
    intro w pre t rest hm hn hD h hs hg
    cases h with
    | mul0 h => exact (hu hx ho hn hD h hs).andThen hg.1
    | @mul _ _ _ as y1 k' bs' y2 b' h hk' h' =>
      simp only [List.length_append, List.length_cons] at hm hn hD hg
      rw [List.append_assoc]
      refine ih false as y1 (⟨k', b'⟩ :: bs' ++ rest) (by omega) (by omega) (by omega) h
        (Stop.op (by rw [level_mul hk']; omega)) ?_
      refine cont_mul hu hx ho (by omega) hk' (by omega) (by omega) h' hs ?_
      rw [show e.depth + as.length + 1 + bs'.length = e.depth + (as.length + (bs'.length + 1)) by
        omega]
      exact hg

theorem add_reach (hu : Finds c n .unary 1 un) {e : Env} {x : Ctx} {o : Bool}
    {T : Ast} {R : Toks} (hx : e.ctx = x) (ho : e.outer = o) :
    ∀ (m : Nat) (w : Bool) (pre : Toks) (t : Ast) (rest : Toks), pre.length ≤ m → pre.length ≤ n →
      e.depth + pre.length ≤ d → G c.dial .add x o w pre t → Stop 1 w rest →
      Cont c un d e x o false (e.depth + pre.length) t rest T R →
      OkOr c d (arith c un e (pre ++ rest)) T R := by
  intro m
  induction m with
  | zero =>
    intro w pre t rest hm hn hD h
    have : pre = [] := List.length_eq_zero_iff.1 (by omega)
    subst this
    obtain ⟨_, _, h, -⟩ := begins h
    cases h
  | succ m ih =>
    intro w pre t rest hm hn hD h hs hg
    cases h with
    | add0 h =>
      exact mul_reach hu hx ho _ w pre t rest (Nat.le_refl _) hn hD h hs
        ⟨hg.1, fun a ha _ => hg.2 a ha nofun⟩
    | @add _ _ _ as y1 k' bs' y2 b' h hk' hfit h' =>
      simp only [List.length_append, List.length_cons] at hm hn hD hg
      rw [List.append_assoc]
      refine ih false as y1 (⟨k', b'⟩ :: bs' ++ rest) (by omega) (by omega) (by omega) h
        (Stop.op (by rw [level_add hk']; omega)) ?_
      refine cont_add hu hx ho (by omega) hk' hfit _ w bs' y2 rest (Nat.le_refl _) (by omega)
        (by omega) h' hs ?_
      rw [show e.depth + as.length + 1 + bs'.length = e.depth + (as.length + (bs'.length + 1)) by
        omega]
      exact hg.2 _ rfl nofun

theorem bitLoop_step {f : Nat} {e : Env} {x : Ast} {k : Op} {b : Bool} {ts : Toks} :
    bitLoop c un k.code (f + 1) e x (⟨.op k, b⟩ :: ts) = deeper c e fun e' =>
      (un e' ts).andThen fun y r => bitLoop c un k.code f e' (.oper (.op k) [x, y]) r := by
  have h : (peek (⟨.op k, b⟩ :: ts)).op = k.code := rfl
  rw [bitLoop, if_pos h]
  rfl

theorem bit_reach (hu : Finds c n .unary 1 un) {e : Env} {x : Ctx} {o : Bool} {k : Op}
    {T : Ast} {R : Toks} (hx : e.ctx = x) (ho : e.outer = o) :
    ∀ (m : Nat) (w : Bool) (pre : Toks) (t : Ast) (rest : Toks), pre.length ≤ m → pre.length ≤ n →
      e.depth + pre.length ≤ d → G c.dial (.bit k) x o w pre t → Stop 1 w rest →
      (∀ f e', rest.length < f → e'.ctx = x → e'.outer = o → e'.depth ≤ e.depth + pre.length →
        OkOr c d (bitLoop c un k.code f e' t rest) T R) →
      OkOr c d (arith c un e (pre ++ rest)) T R := by
  have step : ∀ (e' : Env) (D : Nat) w bs y t b rest,
      e'.ctx = x → e'.outer = o → e'.depth ≤ D →
      bs.length ≤ n → D + 1 + bs.length ≤ d → G c.dial .unary x o w bs y → Stop 1 w rest →
      (∀ f e', rest.length < f → e'.ctx = x → e'.outer = o → e'.depth ≤ D + 1 + bs.length →
        OkOr c d (bitLoop c un k.code f e' (.oper (.op k) [t, y]) rest) T R) →
      ∀ f, (⟨.op k, b⟩ :: bs ++ rest : Toks).length < f →
        OkOr c d (bitLoop c un k.code f e' t (⟨.op k, b⟩ :: bs ++ rest)) T R := by
    intro e' D w bs y t b rest hx ho hD hn hd h hs hk f hf
    cases f with
    | zero => cases hf
    | succ f =>
      rw [List.cons_append, bitLoop_step]
      refine OkOr.deeper (by omega) ?_
      simp only [List.length_append, List.length_cons] at hf
      refine OkOr.andThen (hu (pre := bs) (rest := rest) (x := x) hx ho hn (by dsimp only; omega)
        h hs) ?_
      exact hk f _ (by omega) hx ho (by dsimp only; omega)
  intro m
  induction m with
  | zero =>
    intro w pre t rest hm hn hD h
    have : pre = [] := List.length_eq_zero_iff.1 (by omega)
    subst this
    obtain ⟨_, _, h, -⟩ := begins h
    cases h
  | succ m ih =>
    intro w pre t rest hm hn hD h hs hg
    cases h with
    | @bit1 _ _ _ as y1 _ bs' y2 b' hk h h' =>
      simp only [List.length_append, List.length_cons] at hm hn hD hg
      rw [List.append_assoc]
      rw [arith_eq]
      refine OkOr.andThen (hu (pre := as) hx ho (by omega) (by omega) h
        (Stop.op (by rw [level_bit hk]; omega))) ?_
      have h1 : ¬(peek (⟨.op k, b'⟩ :: bs' ++ rest)).op &&& 0x80 ≠ 0 := by
        change ¬k.code &&& 0x80 ≠ 0
        simp only [bitOps, List.mem_cons, List.not_mem_nil, or_false] at hk
        rcases hk with rfl | rfl | rfl <;> decide
      have h2 : (peek (⟨.op k, b'⟩ :: bs' ++ rest)).op &&& 0xF8 = 0x20 :=
        (code_bit _).2 ⟨k, hk, rfl⟩
      have h3 : (peek (⟨.op k, b'⟩ :: bs' ++ rest)).op = k.code := rfl
      unfold arTail
      rw [if_neg h1, if_pos h2, h3]
      refine step e (e.depth + as.length) w bs' y2 y1 b' rest hx ho (by omega) (by omega) (by omega)
        h' hs ?_ _ (Nat.lt_succ_self _)
      intro f e' hf hx ho hD
      exact hg f e' hf hx ho (by omega)
    | @bit _ _ _ as y1 _ bs' y2 b' h h' =>
      simp only [List.length_append, List.length_cons] at hm hn hD hg
      rw [List.append_assoc]
      refine ih false as y1 (⟨.op k, b'⟩ :: bs' ++ rest) (by omega) (by omega) (by omega) h
        (Stop.op (by rw [level_bit (bit_mem h)]; omega)) ?_
      intro f e' hf hx ho hD'
      refine step e' (e.depth + as.length) w bs' y2 y1 b' rest hx ho (by omega) (by omega) (by omega)
        h' hs ?_ f hf
      intro f e' hf hx ho hD
      exact hg f e' hf hx ho (by omega)

theorem notShift {t : Tok} (h : t.kind ∉ shiftOps) :
    (t.isOp .shl || t.isOp .shr || t.isOp .shru) = false := by
  rw [Bool.eq_false_iff]
  intro h'
  apply h
  simpa [Tok.isOp, shiftOps, or_assoc] using h'

theorem arTail_end {e : Env} {x : Ast} {rest : Toks} (h : 2 < level (peek rest).kind) :
    arTail c un e x rest = .ok x rest := by
  obtain ⟨h1, h2, h3, h4⟩ := level_cases h
  have h5 : ¬(peek rest).op &&& 0x80 ≠ 0 := fun h =>
    ((code_arith _).1 h).elim h1 h2
  unfold arTail
  rw [if_neg h5, if_neg (notBit h3), notShift h4]
  rfl

theorem arith_found (hu : Finds c n .unary 1 un) (hsh : c.dial.shiftChain = false) :
    Finds c n .arith 2 (arith c un) := by
  intro d e x o w pre t rest hx ho hn hd h hs
  cases h with
  | arith h =>
    refine add_reach hu hx ho _ w pre t rest (Nat.le_refl _) hn hd h (hs.mono (by omega)) ?_
    refine ⟨by rw [arTail_end hs.1]; exact .ok, ?_⟩
    rintro a rfl -
    exact going_end hd hs.1
  | arithBit k h =>
    refine bit_reach hu hx ho _ w pre t rest (Nat.le_refl _) hn hd h (hs.mono (by omega)) ?_
    intro f e' hf hx ho hD
    cases f with
    | zero => cases hf
    | succ f =>
      obtain ⟨h1, h2, h3, h4⟩ := level_cases hs.1
      have hk := bit_mem h
      have h5 : ¬(peek rest).op = k.code := fun h => h3 k hk (code_inj h)
      have h6 : (decide ((peek rest).op &&& 0xF8 = 0x20) || decide ((peek rest).op &&& 0xF8 = 0x80)
          || (peek rest).isOp .shl || (peek rest).isOp .shr || (peek rest).isOp .shru) = false := by
        have h7 := notShift h4
        have h8 : decide ((peek rest).op &&& 0xF8 = 0x20) = false := decide_eq_false (notBit h3)
        have h9 : decide ((peek rest).op &&& 0xF8 = 0x80) = false :=
          decide_eq_false (code_arithmetic _)
        rw [h8, h9]
        simpa using h7
      rw [bitLoop, if_neg h5, h6]
      exact .ok
  | arithShift h =>
    cases h with
    | shift _ h => rw [hsh] at h; cases h
    | @shift1 _ _ _ as y1 k bs y2 b hk h h' =>
      simp only [List.length_append, List.length_cons] at hn hd
      rw [List.append_assoc, arith_eq]
      refine OkOr.andThen (hu (pre := as) hx ho (by omega) (by omega) h
        (Stop.op (by rw [level_shift hk]; omega))) ?_
      have h1 : ¬(peek (⟨k, b⟩ :: bs ++ rest)).op &&& 0x80 ≠ 0 := by
        change ¬k.code &&& 0x80 ≠ 0
        simp only [shiftOps, List.mem_cons, List.not_mem_nil, or_false] at hk
        rcases hk with rfl | rfl | rfl <;> decide
      have h2 : ¬(peek (⟨k, b⟩ :: bs ++ rest)).op &&& 0xF8 = 0x20 := by
        change ¬k.code &&& 0xF8 = 0x20
        simp only [shiftOps, List.mem_cons, List.not_mem_nil, or_false] at hk
        rcases hk with rfl | rfl | rfl <;> decide
      have h3 : ((peek (⟨k, b⟩ :: bs ++ rest)).isOp .shl || (peek (⟨k, b⟩ :: bs ++ rest)).isOp .shr
          || (peek (⟨k, b⟩ :: bs ++ rest)).isOp .shru) = true := by
        simp only [shiftOps, List.mem_cons, List.not_mem_nil, or_false] at hk
        rcases hk with rfl | rfl | rfl <;> rfl
      unfold arTail
      rw [if_neg h1, if_neg h2, h3]
      simp only [if_true]
      exact OkOr.andThen (hu (pre := bs) (rest := rest) hx ho (by omega) (by omega) h'
        (hs.mono (by omega))) .ok

theorem comparison_found {ar : P} (ha : Finds c n .arith 2 ar) :
    Finds c n .comparison 3 (comparison ar) := by
  intro d e x o w pre t rest hx ho hn hd h hs
  cases h with
  | cmp0 h =>
    refine (ha hx ho hn hd h (hs.mono (by omega))).andThen ?_
    have h1 : ∀ k, level (.kw k) = 3 → (peek rest).isKw k = false := fun k hk => isKw_ne fun h => by
      have := hs.1; rw [h, hk] at this; omega
    have h2 : ¬((peek rest).op &&& 0xF8 = 0x28) := fun h => by
      have := hs.1; rw [level_cmp ((code_cmp _).1 h).1] at this; omega
    rw [h1 .in rfl, h1 .propertyof rfl, h1 .instanceof rfl, decide_eq_false h2]
    exact .ok
  | @cmp _ _ _ as y1 k bs y2 b h hk h' =>
    simp only [List.length_append, List.length_cons] at hn hd
    rw [List.append_assoc]
    refine OkOr.andThen (ha (pre := as) hx ho (by omega) (by omega) h
      (Stop.op (by rw [level_cmp hk]; omega))) ?_
    have h1 : ((peek (⟨k, b⟩ :: bs ++ rest)).isKw .in || (peek (⟨k, b⟩ :: bs ++ rest)).isKw .propertyof)
        = false := by
      simp only [cmpOps, List.mem_cons, List.not_mem_nil, or_false] at hk
      rcases hk with rfl | rfl | rfl | rfl | rfl | rfl | rfl <;> rfl
    have h2 : (decide ((peek (⟨k, b⟩ :: bs ++ rest)).op &&& 0xF8 = 0x28) ||
        (peek (⟨k, b⟩ :: bs ++ rest)).isKw .instanceof) = true := by
      change (decide (k.code &&& 0xF8 = 0x28) || decide (k = .kw .instanceof)) = true
      simp only [code_cmp]
      by_cases hi : k = .kw .instanceof
      · simp [hi]
      · simp [hi, hk]
    rw [h1, h2]
    exact OkOr.andThen (ha (pre := bs) (rest := rest) hx ho (by omega) (by omega) h'
      (hs.mono (by omega))) .ok
  | @swap _ _ _ as y1 k bs y2 b h hk h' =>
    simp only [List.length_append, List.length_cons] at hn hd
    rw [List.append_assoc]
    refine OkOr.andThen (ha (pre := as) hx ho (by omega) (by omega) h
      (Stop.op (by rw [level_swap hk]; omega))) ?_
    have h1 : ((peek (⟨k, b⟩ :: bs ++ rest)).isKw .in || (peek (⟨k, b⟩ :: bs ++ rest)).isKw .propertyof)
        = true := by
      simp only [swapOps, List.mem_cons, List.not_mem_nil, or_false] at hk
      rcases hk with rfl | rfl <;> rfl
    rw [h1]
    exact OkOr.andThen (ha (pre := bs) (rest := rest) hx ho (by omega) (by omega) h'
      (hs.mono (by omega))) .ok

theorem logicLoop_found {co : P} (ha : Finds c n .comparison 3 co) {k : Op} (hk : k ∈ logicOps) :
    ∀ (f : Nat) {d : Nat} {e : Env} {x : Ctx} {o w : Bool} {pre : Toks} {t : Ast} {rest : Toks},
      e.ctx = x → e.outer = o → pre.length ≤ n → pre.length < f → e.depth + 1 + pre.length ≤ d →
      G c.dial .comparison x o w pre t ∨ G c.dial (.logic k) x o w pre t → Stop 4 w rest →
      OkOr c d (logicLoop c co k f e (pre ++ rest)) t rest := by
  intro f
  induction f with
  | zero => intro _ _ _ _ _ _ _ _ _ _ _ hf; cases hf
  | succ f ih =>
    intro d e x o w pre t rest hx ho hn hf hd h hs
    unfold logicLoop
    refine OkOr.deeper (by omega) ?_
    have hop : ∀ b bs, (peek (⟨.op k, b⟩ :: bs ++ rest)).isOp k = true := fun b bs => by
      simp [peek, Tok.isOp]
    rcases h with h | h
    · refine OkOr.andThen (ha (x := x) hx ho hn (by dsimp only; omega) h (hs.mono (by omega))) ?_
      have h1 : ∀ o ∈ logicOps, (peek rest).isOp o = false := fun o ho => isOp_ne fun h => by
        have := hs.1; rw [h, level_logic ho] at this; omega
      rw [h1 k hk, h1 .logand (by decide), h1 .logor (by decide)]
      exact .ok
    · cases h with
      | @logic1 _ _ _ as y1 _ bs y2 b _ h h' =>
        simp only [List.length_append, List.length_cons] at hn hd hf
        rw [List.append_assoc]
        refine OkOr.andThen (ha (pre := as) (x := x) hx ho (by omega) (by dsimp only; omega) h
          (Stop.op (by rw [level_logic hk]; omega))) ?_
        rw [hop]
        simp only [if_true]
        exact OkOr.andThen (ih (pre := bs) (rest := rest) (x := x) hx ho (by omega) (by omega)
          (by dsimp only; omega) (.inl h') hs) .ok
      | @logic _ _ _ as y1 _ bs y2 b h h' =>
        simp only [List.length_append, List.length_cons] at hn hd hf
        rw [List.append_assoc]
        refine OkOr.andThen (ha (pre := as) (x := x) hx ho (by omega) (by dsimp only; omega) h
          (Stop.op (by rw [level_logic hk]; omega))) ?_
        rw [hop]
        simp only [if_true]
        exact OkOr.andThen (ih (pre := bs) (rest := rest) (x := x) hx ho (by omega) (by omega)
          (by dsimp only; omega) (.inr h') hs) .ok

theorem logical_found {co : P} (ha : Finds c n .comparison 3 co) :
    Finds c n .logical 4 (logical c co) := by
  intro d e x o w pre t rest hx ho hn hd h hs
  have op : ∀ {k : Op}, k ∈ logicOps → ∀ {x1 : Ast} {b : Bool} {bs : Toks} {y : Ast} {D : Nat},
      e.depth + 1 + bs.length ≤ d → bs.length ≤ n →
      G c.dial .comparison x o w bs y ∨ G c.dial (.logic k) x o w bs y →
      OkOr c d (match (peek (⟨.op k, b⟩ :: bs ++ rest)).kind with
        | .op .logand =>
          (logicLoop c co .logand ((⟨.op k, b⟩ :: bs ++ rest : Toks).length + 1) e
            (⟨.op k, b⟩ :: bs ++ rest : Toks).tail).andThen fun y r' =>
            .ok (.oper (.op .logand) [x1, y]) r'
        | .op .logor =>
          (logicLoop c co .logor ((⟨.op k, b⟩ :: bs ++ rest : Toks).length + 1) e
            (⟨.op k, b⟩ :: bs ++ rest : Toks).tail).andThen fun y r' =>
            .ok (.oper (.op .logor) [x1, y]) r'
        | _ => .ok x1 (⟨.op k, b⟩ :: bs ++ rest)) (.oper (.op k) [x1, y]) rest := by
    intro k hk x1 b bs y D h1 h2 h3
    have := logicLoop_found ha hk ((⟨.op k, b⟩ :: bs ++ rest : Toks).length + 1) (pre := bs)
      (rest := rest) (d := d) hx ho h2 (by simp; omega) h1 h3 hs
    have hk' := hk
    simp only [logicOps, List.mem_cons, List.not_mem_nil, or_false] at hk'
    rcases hk' with rfl | rfl
    · exact OkOr.andThen this .ok
    · exact OkOr.andThen this .ok
  cases h with
  | logical0 h =>
    refine (ha hx ho hn hd h (hs.mono (by omega))).andThen ?_
    split
    · next h => have := hs.1; rw [h] at this; exact absurd this (by decide)
    · next h => have := hs.1; rw [h] at this; exact absurd this (by decide)
    · exact .ok
  | logical k h =>
    have hk := logic_mem h
    cases h with
    | @logic1 _ _ _ as y1 _ bs y2 b _ h h' =>
      simp only [List.length_append, List.length_cons] at hn hd
      rw [List.append_assoc]
      refine OkOr.andThen (ha (pre := as) hx ho (by omega) (by omega) h
        (Stop.op (by rw [level_logic hk]; omega))) ?_
      exact op hk (D := 0) (by have := begins h; obtain ⟨_, _, rfl, -⟩ := this; simp at hd; omega)
        (by omega) (.inl h')
    | @logic _ _ _ as y1 _ bs y2 b h h' =>
      simp only [List.length_append, List.length_cons] at hn hd
      rw [List.append_assoc]
      refine OkOr.andThen (ha (pre := as) hx ho (by omega) (by omega) h
        (Stop.op (by rw [level_logic hk]; omega))) ?_
      exact op hk (D := 0) (by have := begins h; obtain ⟨_, _, rfl, -⟩ := this; simp at hd; omega)
        (by omega) (.inr h')

theorem conditional_found {lo : P} (ha : Finds c n .logical 4 lo) :
    ∀ f, Finds c (min n f) .cond 5 (conditional c lo (f + 1)) := by
  intro f
  induction f with
  | zero =>
    intro d e x o w pre t rest hx ho hn hd h hs
    have : pre = [] := List.length_eq_zero_iff.1 (by omega)
    subst this
    obtain ⟨_, _, h, -⟩ := begins h
    cases h
  | succ f ih =>
    intro d e x o w pre t rest hx ho hn hd h hs
    unfold conditional
    cases h with
    | cond0 h =>
      refine (ha hx ho (by omega) hd h (hs.mono (by omega))).andThen ?_
      rw [isOp_ne (fun h => by have := hs.1; rw [h] at this; exact absurd this (by decide))]
      exact .ok
    | @cond _ _ _ w' as y1 bs y2 cs z b b' h h1 h2 =>
      simp only [List.length_append, List.length_cons] at hn hd
      rw [List.append_assoc, List.append_assoc]
      refine OkOr.andThen (ha (pre := as) hx ho (by omega) (by omega) h (Stop.op (by decide))) ?_
      have h3 : (peek (⟨.op .tri, b⟩ :: bs ++ (⟨.sep .colon, b'⟩ :: cs ++ rest))).isOp .tri = true :=
        rfl
      rw [h3]
      simp only [if_true]
      refine OkOr.deeper (by omega) ?_
      refine OkOr.andThen (ih (pre := bs) (rest := ⟨.sep .colon, b'⟩ :: cs ++ rest) (x := x) hx
        (Env.inner_outer _) (by omega) (by simp only [Env.inner]; omega) h1
        (Stop.end (Nat.lt_succ_self 6) (by omega))) ?_
      rw [List.cons_append, assume_sep]
      exact OkOr.andThen (ih (pre := cs) (rest := rest) (x := x) hx ho (by omega)
        (by dsimp only; omega) h2 hs) .ok

theorem condP_found {lo : P} (ha : Finds c n .logical 4 lo) :
    Finds c n .cond 5 (fun e ts => conditional c lo (ts.length + 1) e ts) := by
  intro d e x o w pre t rest hx ho hn hd h hs
  refine conditional_found ha (pre ++ rest).length hx ho ?_ hd h hs
  simp only [List.length_append]
  omega

theorem stream_reach {cd : P} (ha : Finds c n .cond 5 cd) {e : Env} {x : Ctx} {o : Bool}
    {T : Ast} {R : Toks} (hx : e.ctx = x) (ho : e.outer = o) :
    ∀ (m : Nat) (w : Bool) (pre : Toks) (t : Ast) (rest : Toks), pre.length ≤ m → pre.length ≤ n →
      e.depth + 1 + pre.length ≤ d → G c.dial .stream x o w pre t → Stop 5 w rest →
      (∀ f e', rest.length < f → e'.ctx = x → e'.outer = o → e'.depth ≤ e.depth + pre.length →
        OkOr c d (streamLoop c cd f e' t rest) T R) →
      OkOr c d (stream c cd e (pre ++ rest)) T R := by
  intro m
  induction m with
  | zero =>
    intro w pre t rest hm hn hD h
    have : pre = [] := List.length_eq_zero_iff.1 (by omega)
    subst this
    obtain ⟨_, _, h, -⟩ := begins h
    cases h
  | succ m ih =>
    intro w pre t rest hm hn hD h hs hk
    cases h with
    | stream0 h =>
      refine OkOr.deeper (by omega) ?_
      have : 1 ≤ pre.length := by
        obtain ⟨_, _, rfl, -⟩ := begins h
        simp
      refine OkOr.andThen (ha (x := x) hx ho hn (by dsimp only; omega) h hs) ?_
      exact hk _ _ (Nat.lt_succ_self _) hx ho (by dsimp only; omega)
    | @stream _ _ _ as y1 bs y2 g b h h' hcal =>
      simp only [List.length_append, List.length_cons] at hm hn hD hk
      rw [List.append_assoc]
      refine ih false as y1 _ (by omega) (by omega) (by omega) h (Stop.op (by decide)) ?_
      intro f e' hf hx ho hD'
      cases f with
      | zero => cases hf
      | succ f =>
        have h3 : (peek (⟨.op .arrow, b⟩ :: bs ++ rest)).isOp .arrow = true := rfl
        unfold streamLoop
        rw [h3]
        simp only [if_true]
        refine OkOr.deeper (by omega) ?_
        refine OkOr.andThen (ha (pre := bs) (rest := rest) (x := x) hx ho (by omega)
          (by dsimp only; omega) h' hs) ?_
        have hcal' : callee { e' with depth := e'.depth + 1 } y2 = some g := by
          rw [callee_iff]
          have : Env.ctx { e' with depth := e'.depth + 1 } = x := hx
          rw [this]
          exact hcal
        rw [hcal']
        simp only [List.length_append, List.length_cons] at hf
        exact hk f _ (by omega) hx ho (by dsimp only; omega)

/-- `stream_expr` begins with a level of its own. -/
theorem stream_found {cd : P} (ha : Finds c n .cond 5 cd) {e : Env} {x : Ctx} {o w : Bool}
    {pre : Toks} {t : Ast} {rest : Toks} (hx : e.ctx = x) (ho : e.outer = o)
    (hn : pre.length ≤ n) (hd : e.depth + 1 + pre.length ≤ d)
    (h : G c.dial .stream x o w pre t) (hs : 6 < level (peek rest).kind) :
    OkOr c d (stream c cd e (pre ++ rest)) t rest := by
  refine stream_reach ha hx ho _ w pre t rest (Nat.le_refl _) hn hd h (Stop.end hs (by omega)) ?_
  intro f e' hf _ _ _
  cases f with
  | zero => cases hf
  | succ f =>
    unfold streamLoop
    rw [isOp_ne (fun h => by rw [h] at hs; exact absurd hs (by decide))]
    exact .ok

theorem rhsBody_found {cd : P} (ha : Finds c n .cond 5 cd) :
    Complete c (rhsBody (stream c cd)) (n + 1) := by
  intro d e x o w pre t rest hx ho hn hd h hs
  have key : ∀ {ts s : Toks}, Head startsUnary ts → (peek (ts ++ s)).isKw .yield = false ∧
      (peek (ts ++ s)).isKw .async = false := fun hh =>
    ⟨isKw_ne (starts_not_sep hh rfl), isKw_ne (starts_not_sep hh rfl)⟩
  have as : ∀ {ts : Toks} {t : Ast}, ts.length ≤ n → e.depth + 1 + ts.length ≤ d →
      G c.dial .stream x o w ts t → t.ty = .invocation →
      OkOr c d (async (stream c cd) e (ts ++ rest)) (.mk .async none [t]) rest := by
    intro ts t h1 h2 h3 h4
    refine (stream_found ha hx ho h1 h2 h3 hs).andThen ?_
    rw [if_pos h4]
    exact .ok
  cases h with
  | rhs h =>
    obtain ⟨h1, h2⟩ := key (s := rest) (begins h)
    unfold rhsBody
    rw [h1, h2]
    exact stream_found ha hx ho (by omega) (by omega) h hs
  | rhsAsync h =>
    cases h with
    | @async _ _ _ ts t b h hi =>
      simp only [List.length_cons] at hn hd
      change OkOr c d (async (stream c cd) e (ts ++ rest)) _ _
      exact as (by omega) (by omega) h hi
  | @yield _ _ _ ts t b hc h =>
    simp only [List.length_cons] at hn hd
    obtain ⟨-, h2⟩ := key (s := rest) (begins h)
    have hc' : e.ctor = false := by rw [← hx] at hc; exact hc
    change OkOr c d (if e.ctor = true then .err .syntax
      else if (peek (ts ++ rest)).isKw .async = true then _
      else (stream c cd e (ts ++ rest)).andThen fun x r => .ok (Ast.mk .yield none [x]) r) _ _
    rw [hc', h2]
    exact OkOr.andThen (stream_found ha hx ho (by omega) (by omega) h hs) .ok
  | yieldAsync b hc h =>
    cases h with
    | @async _ _ _ ts t b' h hi =>
      simp only [List.length_cons] at hn hd
      have hc' : e.ctor = false := by rw [← hx] at hc; exact hc
      change OkOr c d (if e.ctor = true then .err .syntax
        else (async (stream c cd) e (ts ++ rest)).andThen
          fun x r => .ok (Ast.mk .yield none [x]) r) _ _
      rw [hc']
      exact OkOr.andThen (as (by omega) (by omega) h hi) .ok

theorem rhsN_found : ∀ n, Complete c (rhsN c n) n := by
  intro n
  induction n with
  | zero => intro _ _ _ _ _ _ _ _ _ _ hn; cases hn
  | succ n ih =>
    have hu : Finds c n .unary 1 (unaryP c (rhsN c n)) := unaryP_found ih rfl
    have hl : Finds c n .logical 4 (logicalP c (rhsN c n)) :=
      logical_found (comparison_found (arith_found hu rfl))
    have hcd : Finds c n .cond 5 (condP c (rhsN c n)) := condP_found hl
    intro d e x o w pre t rest hx ho hn hd h hs
    exact rhsBody_found hcd hx ho hn hd h hs

/-- The parser finds every phrase of the grammar, unless the tree is too deep. -/
theorem parseRhs_found {e : Env} {w : Bool} {pre : Toks} {t : Ast} {rest : Toks}
    (h : G c.dial .rhs e.ctx e.outer w pre t) (hs : continues (peek rest).kind = false) :
    OkOr c (e.depth + pre.length + 1) (parseRhs c e (pre ++ rest)) t rest :=
  rhsN_found _ rfl rfl (by simp; omega) (Nat.le_refl _) h ((level_continues _).2 hs)

end

end Verif.Expr
