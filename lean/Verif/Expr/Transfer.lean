import Verif.Expr.CompOps

/-!
# Where the documented grammar and that of the code agree
-/

namespace Verif.Expr

/-- The operators of tokens. -/
def kinds (ts : Toks) : List Kind := ts.map Tok.kind

/-- Neither two commas in a row nor two shift operators. -/
def Neat (ts : Toks) : Prop :=
  ¬[.sep .comma, .sep .comma] <:+: kinds ts ∧ ((kinds ts).filter (· ∈ shiftOps)).length ≤ 1

theorem kinds_append (a b : Toks) : kinds (a ++ b) = kinds a ++ kinds b := List.map_append

theorem Neat.of_infix {ts ts' : Toks} (h : Neat ts) (hs : ts' <:+: ts) : Neat ts' := by
  have hk : kinds ts' <:+: kinds ts := hs.map _
  exact ⟨fun h' => h.1 (h'.trans hk),
    Nat.le_trans (hk.filter _).length_le h.2⟩

@[grind →] theorem Neat.left {a b : Toks} (h : Neat (a ++ b)) : Neat a :=
  h.of_infix (List.prefix_append a b).isInfix

@[grind →] theorem Neat.right {a b : Toks} (h : Neat (a ++ b)) : Neat b :=
  h.of_infix (List.suffix_append a b).isInfix

@[grind →] theorem Neat.tail {x : Tok} {a : Toks} (h : Neat (x :: a)) : Neat a :=
  h.of_infix (List.suffix_cons x a).isInfix

theorem Neat.commas {a r : Toks} {b b' : Bool}
    (h : Neat (a ++ [⟨.sep .comma, b⟩] ++ ⟨.sep .comma, b'⟩ :: r)) : False := by
  apply h.1
  refine ⟨kinds a, kinds r, ?_⟩
  simp [kinds]

theorem shift_has {d : Dialect} {c : Ctx} {o w : Bool} {ts : Toks} {t : Ast}
    (h : G d .shift c o w ts t) : 1 ≤ ((kinds ts).filter (· ∈ shiftOps)).length := by
  cases h with
  | shift1 b hk h h' => simp [kinds, hk]; omega
  | shift b hd hk h h' => simp [kinds, hk]; omega

/-- A phrase in another dialect; a list of properties may end with a comma. -/
def Moved (d : Dialect) (cat : Cat) (c : Ctx) (o w : Bool) (ts : Toks) (t : Ast) : Prop :=
  G d cat c o w ts t ∨
    (cat = .props ∧ ∃ ts' b, ts = ts' ++ [⟨.sep .comma, b⟩] ∧ G d cat c o w ts' t)

@[grind →] theorem Moved.g {d : Dialect} {cat : Cat} {c : Ctx} {o w : Bool} {ts : Toks} {t : Ast}
    (h : Moved d cat c o w ts t) (hc : cat ≠ .props) : G d cat c o w ts t := by
  rcases h with h | ⟨h, -⟩
  · exact h
  · exact absurd h hc

theorem Fits.weaken {o o' : Bool} {t : Tok} (h : Fits o t) (ho : o' = true → o = true) :
    Fits o' t := fun h' => h ⟨ho h'.1, h'.2⟩

/-- Neat phrases of the documented grammar are phrases of every dialect. -/
theorem doc_moved {cat : Cat} {c : Ctx} {o w : Bool} {ts : Toks} {t : Ast}
    (h : G .doc cat c o w ts t) : ∀ (d : Dialect) (o' : Bool), Neat ts → (o' = true → o = true) →
      Moved d cat c o' w ts t := by
  induction h with
  | atom b h => exact fun d o' hn ho => .inl (.atom b h)
  | paren b b' h ih =>
    exact fun d o' hn ho => .inl (.paren b b' ((ih d false (by grind) nofun).g nofun))
  | array b b' h ih =>
    exact fun d o' hn ho => .inl (.array b b' ((ih d false (by grind) nofun).g nofun))
  | object b b' h ih =>
    exact fun d o' hn ho => .inl (.object b b' ((ih d false (by grind) nofun).g nofun))
  | lambda1 x b b' h ih =>
    exact fun d o' hn ho => .inl (.lambda1 x b b' ((ih d false (by grind) nofun).g nofun))
  | lambda b b' b'' h h' ih ih' =>
    exact fun d o' hn ho => .inl (.lambda b b' b'' ((ih d false (by grind) nofun).g nofun)
      ((ih' d false (by grind) nofun).g nofun))
  | item h ih => exact fun d o' hn ho => .inl (.item ((ih d o' hn ho).g nofun))
  | expand b h ih => exact fun d o' hn ho => .inl (.expand b ((ih d o' (by grind) ho).g nofun))
  | items1 h ih => exact fun d o' hn ho => .inl (.items1 ((ih d o' hn ho).g nofun))
  | items b h h' ih ih' =>
    exact fun d o' hn ho => .inl (.items b ((ih d o' (by grind) ho).g nofun)
      ((ih' d o' (by grind) ho).g nofun))
  | elements0 => exact fun d o' hn ho => .inl .elements0
  | elements h ih => exact fun d o' hn ho => .inl (.elements ((ih d o' hn ho).g nofun))
  | elementsComma b h ih =>
    exact fun d o' hn ho => .inl (.elementsComma b ((ih d o' (by grind) ho).g nofun))
  | props1 b b' hk h ih =>
    exact fun d o' hn ho => .inl (.props1 b b' hk ((ih d o' (by grind) ho).g nofun))
  | props b b' b'' h hk h' ih ih' =>
    intro d o' hn ho
    rcases ih d o' (by grind) ho with h1 | ⟨-, ts', b3, rfl, h1⟩
    · exact .inl (.props b b' b'' h1 hk ((ih' d o' (by grind) ho).g nofun))
    · exact hn.commas.elim
  | propsEmpty b he h ih =>
    intro d o' hn ho
    rcases ih d o' (by grind) ho with h1 | ⟨-, ts', b3, rfl, h1⟩
    · exact .inr ⟨rfl, _, b, rfl, h1⟩
    · exact hn.commas.elim
  | fields0 => exact fun d o' hn ho => .inl .fields0
  | fields h ih =>
    intro d o' hn ho
    rcases ih d o' (by grind) ho with h1 | ⟨-, ts', b3, rfl, h1⟩
    · exact .inl (.fields h1)
    · exact .inl (.fieldsComma b3 h1)
  | fieldsComma b h ih =>
    intro d o' hn ho
    rcases ih d o' (by grind) ho with h1 | ⟨-, ts', b3, rfl, h1⟩
    · exact .inl (.fieldsComma b h1)
    · exact hn.commas.elim
  | plain1 x b => exact fun d o' hn ho => .inl (.plain1 x b)
  | plain x b b' h ih =>
    exact fun d o' hn ho => .inl (.plain x b b' ((ih d o' (by grind) ho).g nofun))
  | defs1 x b b' h ih =>
    exact fun d o' hn ho => .inl (.defs1 x b b' ((ih d o' (by grind) ho).g nofun))
  | defsPlain x b b' b'' h hl h' ih ih' =>
    exact fun d o' hn ho => .inl (.defsPlain x b b' b'' ((ih d o' (by grind) ho).g nofun) hl
      ((ih' d o' (by grind) ho).g nofun))
  | defs x b b' b'' h h' ih ih' =>
    exact fun d o' hn ho => .inl (.defs x b b' b'' ((ih d o' (by grind) ho).g nofun)
      ((ih' d o' (by grind) ho).g nofun))
  | params0 => exact fun d o' hn ho => .inl .params0
  | params hc h ih =>
    exact fun d o' hn ho => .inl (.params hc ((ih d o' hn ho).g (by rintro rfl; simp at hc)))
  | paramsComma b ht hc h ih => cases ht
  | rest1 x b b' => exact fun d o' hn ho => .inl (.rest1 x b b')
  | rest x b b' b'' hc h ih =>
    exact fun d o' hn ho =>
      .inl (.rest x b b' b'' hc ((ih d o' (by grind) ho).g (by rintro rfl; simp at hc)))
  | named1 x b b' h ih =>
    exact fun d o' hn ho => .inl (.named1 x b b' ((ih d o' (by grind) ho).g nofun))
  | named x b b' b'' h h' ih ih' =>
    exact fun d o' hn ho => .inl (.named x b b' b'' ((ih d o' (by grind) ho).g nofun)
      ((ih' d o' (by grind) ho).g nofun))
  | args0 => exact fun d o' hn ho => .inl .args0
  | args h ih => exact fun d o' hn ho => .inl (.args ((ih d o' hn ho).g nofun))
  | argsNamed h ih => exact fun d o' hn ho => .inl (.argsNamed ((ih d o' hn ho).g nofun))
  | member h ih => exact fun d o' hn ho => .inl (.member ((ih d o' hn ho).g nofun))
  | dot b b' h hk ih =>
    exact fun d o' hn ho => .inl (.dot b b' ((ih d o' (by grind) ho).g nofun) hk)
  | optDot b b' b'' h hk ih =>
    exact fun d o' hn ho => .inl (.optDot b b' b'' ((ih d o' (by grind) ho).g nofun) hk)
  | index b b' h hf h' ih ih' =>
    exact fun d o' hn ho => .inl (.index b b' ((ih d o' (by grind) ho).g nofun) (hf.weaken ho)
      ((ih' d false (by grind) nofun).g nofun))
  | optIndex b b' b'' h hf h' ih ih' =>
    exact fun d o' hn ho => .inl (.optIndex b b' b'' ((ih d o' (by grind) ho).g nofun)
      (hf.weaken ho) ((ih' d false (by grind) nofun).g nofun))
  | bound0 => exact fun d o' hn ho => .inl .bound0
  | bound h ih => exact fun d o' hn ho => .inl (.bound ((ih d o' hn ho).g nofun))
  | slice b b' b'' h hf h1 h2 ih ih1 ih2 =>
    exact fun d o' hn ho => .inl (.slice b b' b'' ((ih d o' (by grind) ho).g nofun)
      (hf.weaken ho) ((ih1 d false (by grind) nofun).g nofun)
      ((ih2 d false (by grind) nofun).g nofun))
  | optSlice b b' b'' b3 ht => cases ht
  | call b b' h hc hf h' ih ih' =>
    exact fun d o' hn ho => .inl (.call b b' ((ih d o' (by grind) ho).g nofun) hc
      (hf.weaken ho) ((ih' d false (by grind) nofun).g nofun))
  | unary0 h ih => exact fun d o' hn ho => .inl (.unary0 ((ih d o' hn ho).g nofun))
  | unary b hk h ih =>
    intro d o' hn ho
    refine .inl (.unary b hk ((ih d _ (by grind) ?_).g nofun))
    intro h
    rw [Bool.and_eq_true] at h
    rw [ho h.1]
    rfl
  | mul0 h ih => exact fun d o' hn ho => .inl (.mul0 ((ih d o' hn ho).g nofun))
  | mul b h hk h' ih ih' =>
    exact fun d o' hn ho => .inl (.mul b ((ih d o' (by grind) ho).g nofun) hk
      ((ih' d o' (by grind) ho).g nofun))
  | add0 h ih => exact fun d o' hn ho => .inl (.add0 ((ih d o' hn ho).g nofun))
  | add b h hk hf h' ih ih' =>
    exact fun d o' hn ho => .inl (.add b ((ih d o' (by grind) ho).g nofun) hk (hf.weaken ho)
      ((ih' d o' (by grind) ho).g nofun))
  | bit1 b hk h h' ih ih' =>
    exact fun d o' hn ho => .inl (.bit1 b hk ((ih d o' (by grind) ho).g nofun)
      ((ih' d o' (by grind) ho).g nofun))
  | bit b h h' ih ih' =>
    exact fun d o' hn ho => .inl (.bit b ((ih d o' (by grind) ho).g nofun)
      ((ih' d o' (by grind) ho).g nofun))
  | shift1 b hk h h' ih ih' =>
    exact fun d o' hn ho => .inl (.shift1 b hk ((ih d o' (by grind) ho).g nofun)
      ((ih' d o' (by grind) ho).g nofun))
  | shift b hd hk h h' ih ih' =>
    intro d o' hn ho
    have h1 := shift_has h
    have h2 := hn.2
    simp [kinds, hk] at h1 h2
    omega
  | arith h ih => exact fun d o' hn ho => .inl (.arith ((ih d o' hn ho).g nofun))
  | arithBit k h ih => exact fun d o' hn ho => .inl (.arithBit k ((ih d o' hn ho).g nofun))
  | arithShift h ih => exact fun d o' hn ho => .inl (.arithShift ((ih d o' hn ho).g nofun))
  | cmp0 h ih => exact fun d o' hn ho => .inl (.cmp0 ((ih d o' hn ho).g nofun))
  | cmp b h hk h' ih ih' =>
    exact fun d o' hn ho => .inl (.cmp b ((ih d o' (by grind) ho).g nofun) hk
      ((ih' d o' (by grind) ho).g nofun))
  | swap b h hk h' ih ih' =>
    exact fun d o' hn ho => .inl (.swap b ((ih d o' (by grind) ho).g nofun) hk
      ((ih' d o' (by grind) ho).g nofun))
  | logic1 b hk h h' ih ih' =>
    exact fun d o' hn ho => .inl (.logic1 b hk ((ih d o' (by grind) ho).g nofun)
      ((ih' d o' (by grind) ho).g nofun))
  | logic b h h' ih ih' =>
    exact fun d o' hn ho => .inl (.logic b ((ih d o' (by grind) ho).g nofun)
      ((ih' d o' (by grind) ho).g nofun))
  | logical0 h ih => exact fun d o' hn ho => .inl (.logical0 ((ih d o' hn ho).g nofun))
  | logical k h ih => exact fun d o' hn ho => .inl (.logical k ((ih d o' hn ho).g nofun))
  | cond0 h ih => exact fun d o' hn ho => .inl (.cond0 ((ih d o' hn ho).g nofun))
  | cond b b' h h1 h2 ih ih1 ih2 =>
    exact fun d o' hn ho => .inl (.cond b b' ((ih d o' (by grind) ho).g nofun)
      ((ih1 d false (by grind) nofun).g nofun) ((ih2 d o' (by grind) ho).g nofun))
  | stream0 h ih => exact fun d o' hn ho => .inl (.stream0 ((ih d o' hn ho).g nofun))
  | stream b h h' hc ih ih' =>
    exact fun d o' hn ho => .inl (.stream b ((ih d o' (by grind) ho).g nofun)
      ((ih' d o' (by grind) ho).g nofun) hc)
  | async b h ht ih => exact fun d o' hn ho => .inl (.async b ((ih d o' (by grind) ho).g nofun) ht)
  | rhs h ih => exact fun d o' hn ho => .inl (.rhs ((ih d o' hn ho).g nofun))
  | rhsAsync h ih => exact fun d o' hn ho => .inl (.rhsAsync ((ih d o' hn ho).g nofun))
  | yield b hc h ih =>
    exact fun d o' hn ho => .inl (.yield b hc ((ih d o' (by grind) ho).g nofun))
  | yieldAsync b hc h ih =>
    exact fun d o' hn ho => .inl (.yieldAsync b hc ((ih d o' (by grind) ho).g nofun))

/-- Tokens in which the code accepts nothing but what is documented: no `=>`, no `(` or `[`
which is the first token of a line, no `[` with `?` behind it. -/
def Strict (ts : Toks) : Prop :=
  (∀ t ∈ ts, t.kind ≠ .op .lambda) ∧
  (∀ t ∈ ts, t.kind = .sep .parenOpen ∨ t.kind = .sep .squareOpen → t.eol = false) ∧
  ¬[.sep .squareOpen, .op .tri] <:+: kinds ts

theorem Strict.of_infix {ts ts' : Toks} (h : Strict ts) (hs : ts' <:+: ts) : Strict ts' :=
  ⟨fun t ht => h.1 t (hs.subset ht), fun t ht => h.2.1 t (hs.subset ht),
    fun h' => h.2.2 (h'.trans (hs.map _))⟩

@[grind →] theorem Strict.left {a b : Toks} (h : Strict (a ++ b)) : Strict a :=
  h.of_infix (List.prefix_append a b).isInfix

@[grind →] theorem Strict.right {a b : Toks} (h : Strict (a ++ b)) : Strict b :=
  h.of_infix (List.suffix_append a b).isInfix

@[grind →] theorem Strict.tail {x : Tok} {a : Toks} (h : Strict (x :: a)) : Strict a :=
  h.of_infix (List.suffix_cons x a).isInfix

theorem Strict.head {x : Tok} {a r : Toks} (h : Strict (a ++ x :: r))
    (hx : x.kind = .sep .parenOpen ∨ x.kind = .sep .squareOpen) (o : Bool) : Fits o x := by
  intro h'
  have := h.2.1 x (by simp) hx
  rw [this] at h'
  cases h'.2

def Local : Cat → Bool
  | .primary | .member | .unary => true
  | _ => false

/-- Strict phrases of the grammar of the code are documented. -/
theorem code_moved {d : Dialect} (hd1 : d.emptyProps = false) (hd2 : d.shiftChain = false)
    {cat : Cat} {c : Ctx} {o w : Bool} {ts : Toks} {t : Ast}
    (h : G d cat c o w ts t) : ∀ (d : Dialect) (o' : Bool), Strict ts →
      (cat ∈ [.plain, .defs, .params] → False) → (Local cat = true ∨ o' = o) →
      G d cat c o' w ts t := by
  have same : ∀ {cat : Cat} {o o' : Bool}, Local cat = false → Local cat = true ∨ o' = o → o' = o :=
    fun hl ho => ho.resolve_left (by rw [hl]; exact Bool.false_ne_true)
  induction h with
  | atom b h => exact fun d o' hn hp ho => .atom b h
  | paren b b' h ih => exact fun d o' hn hp ho => .paren b b' (ih d _ (by grind) (by simp) (.inr rfl))
  | array b b' h ih => exact fun d o' hn hp ho => .array b b' (ih d _ (by grind) (by simp) (.inr rfl))
  | object b b' h ih => exact fun d o' hn hp ho => .object b b' (ih d _ (by grind) (by simp) (.inr rfl))
  | lambda1 x b b' h ih => exact fun d o' hn => absurd rfl (hn.1 ⟨.op .lambda, b'⟩ (by simp))
  | lambda b b' b'' h h' ih ih' =>
    exact fun d o' hn => absurd rfl (hn.1 ⟨.op .lambda, b''⟩ (by simp))
  | plain1 => exact fun d o' hn hp => (hp (by simp)).elim
  | plain => exact fun d o' hn hp => (hp (by simp)).elim
  | defs1 => exact fun d o' hn hp => (hp (by simp)).elim
  | defsPlain => exact fun d o' hn hp => (hp (by simp)).elim
  | defs => exact fun d o' hn hp => (hp (by simp)).elim
  | params0 => exact fun d o' hn hp => (hp (by simp)).elim
  | params => exact fun d o' hn hp => (hp (by simp)).elim
  | paramsComma => exact fun d o' hn hp => (hp (by simp)).elim
  | rest1 => exact fun d o' hn hp => (hp (by simp)).elim
  | rest => exact fun d o' hn hp => (hp (by simp)).elim
  | propsEmpty b he => rw [hd1] at he; cases he
  | shift b he => rw [hd2] at he; cases he
  | member h ih => exact fun d o' hn hp ho => .member (ih d _ hn (by simp) (.inl rfl))
  | dot b b' h hk ih => exact fun d o' hn hp ho => .dot b b' (ih d _ (by grind) (by simp) (.inl rfl)) hk
  | optDot b b' b'' h hk ih =>
    exact fun d o' hn hp ho => .optDot b b' b'' (ih d _ (by grind) (by simp) (.inl rfl)) hk
  | index b b' h hf h' ih ih' =>
    intro d o' hn hp ho
    rw [List.append_assoc] at hn ⊢
    have h1 := G.index b b' (ih d o' (by grind) (by simp) (.inl rfl)) (hn.head (.inr rfl) o')
      (ih' d _ (by grind) (by simp) (.inr rfl))
    simpa using h1
  | optIndex b b' b'' h hf h' ih ih' =>
    intro d o' hn hp ho
    exact (hn.2.2 (by
      rename_i ts _ ks _
      exact ⟨kinds ts, kinds ks ++ [.sep .squareClose], by simp [kinds]⟩)).elim
  | slice b b' b'' h hf h1 h2 ih ih1 ih2 =>
    intro d o' hn hp ho
    have hn' := hn
    simp only [List.append_assoc, List.cons_append] at hn'
    exact .slice b b' b'' (ih d o' (by grind) (by simp) (.inl rfl)) (hn'.head (.inr rfl) o')
      (ih1 d _ (by grind) (by simp) (.inr rfl)) (ih2 d _ (by grind) (by simp) (.inr rfl))
  | optSlice b b' b'' b3 he h hf h1 h2 =>
    intro d o' hn hp ho
    exact (hn.2.2 (by
      rename_i ts _ as _ bs _ _ _ _
      exact ⟨kinds ts, kinds as ++ .sep .colon :: kinds bs ++ [.sep .squareClose],
        by simp [kinds]⟩)).elim
  | call b b' h hc hf h' ih ih' =>
    intro d o' hn hp ho
    have hn' := hn
    simp only [List.append_assoc, List.cons_append] at hn'
    exact .call b b' (ih d o' (by grind) (by simp) (.inl rfl)) hc (hn'.head (.inl rfl) o')
      (ih' d _ (by grind) (by simp) (.inr rfl))
  | unary0 h ih => exact fun d o' hn hp ho => .unary0 (ih d _ hn (by simp) (.inl rfl))
  | unary b hk h ih => exact fun d o' hn hp ho => .unary b hk (ih d _ (by grind) (by simp) (.inl rfl))
  | item h ih =>
    intro d o' hn hp ho
    obtain rfl := same rfl ho
    exact .item (ih d _ (by grind) (by simp) (.inr rfl))
  | expand b h ih =>
    intro d o' hn hp ho
    obtain rfl := same rfl ho
    exact .expand b (ih d _ (by grind) (by simp) (.inr rfl))
  | items1 h ih =>
    intro d o' hn hp ho
    obtain rfl := same rfl ho
    exact .items1 (ih d _ (by grind) (by simp) (.inr rfl))
  | items b h h' ih ih' =>
    intro d o' hn hp ho
    obtain rfl := same rfl ho
    exact .items b (ih d _ (by grind) (by simp) (.inr rfl))
      (ih' d _ (by grind) (by simp) (.inr rfl))
  | elements0 =>
    intro d o' hn hp ho
    obtain rfl := same rfl ho
    exact .elements0
  | elements h ih =>
    intro d o' hn hp ho
    obtain rfl := same rfl ho
    exact .elements (ih d _ (by grind) (by simp) (.inr rfl))
  | elementsComma b h ih =>
    intro d o' hn hp ho
    obtain rfl := same rfl ho
    exact .elementsComma b (ih d _ (by grind) (by simp) (.inr rfl))
  | props1 b b' hk h ih =>
    intro d o' hn hp ho
    obtain rfl := same rfl ho
    exact .props1 b b' hk (ih d _ (by grind) (by simp) (.inr rfl))
  | props b b' b'' h hk h' ih ih' =>
    intro d o' hn hp ho
    obtain rfl := same rfl ho
    exact .props b b' b'' (ih d _ (by grind) (by simp) (.inr rfl)) hk
      (ih' d _ (by grind) (by simp) (.inr rfl))
  | fields0 =>
    intro d o' hn hp ho
    obtain rfl := same rfl ho
    exact .fields0
  | fields h ih =>
    intro d o' hn hp ho
    obtain rfl := same rfl ho
    exact .fields (ih d _ (by grind) (by simp) (.inr rfl))
  | fieldsComma b h ih =>
    intro d o' hn hp ho
    obtain rfl := same rfl ho
    exact .fieldsComma b (ih d _ (by grind) (by simp) (.inr rfl))
  | named1 x b b' h ih =>
    intro d o' hn hp ho
    obtain rfl := same rfl ho
    exact .named1 x b b' (ih d _ (by grind) (by simp) (.inr rfl))
  | named x b b' b'' h h' ih ih' =>
    intro d o' hn hp ho
    obtain rfl := same rfl ho
    exact .named x b b' b'' (ih d _ (by grind) (by simp) (.inr rfl))
      (ih' d _ (by grind) (by simp) (.inr rfl))
  | args0 =>
    intro d o' hn hp ho
    obtain rfl := same rfl ho
    exact .args0
  | args h ih =>
    intro d o' hn hp ho
    obtain rfl := same rfl ho
    exact .args (ih d _ (by grind) (by simp) (.inr rfl))
  | argsNamed h ih =>
    intro d o' hn hp ho
    obtain rfl := same rfl ho
    exact .argsNamed (ih d _ (by grind) (by simp) (.inr rfl))
  | bound0 =>
    intro d o' hn hp ho
    obtain rfl := same rfl ho
    exact .bound0
  | bound h ih =>
    intro d o' hn hp ho
    obtain rfl := same rfl ho
    exact .bound (ih d _ (by grind) (by simp) (.inr rfl))
  | mul0 h ih =>
    intro d o' hn hp ho
    obtain rfl := same rfl ho
    exact .mul0 (ih d _ (by grind) (by simp) (.inr rfl))
  | mul b h hk h' ih ih' =>
    intro d o' hn hp ho
    obtain rfl := same rfl ho
    exact .mul b (ih d _ (by grind) (by simp) (.inr rfl)) hk
      (ih' d _ (by grind) (by simp) (.inr rfl))
  | add0 h ih =>
    intro d o' hn hp ho
    obtain rfl := same rfl ho
    exact .add0 (ih d _ (by grind) (by simp) (.inr rfl))
  | add b h hk hf h' ih ih' =>
    intro d o' hn hp ho
    obtain rfl := same rfl ho
    exact .add b (ih d _ (by grind) (by simp) (.inr rfl)) hk hf
      (ih' d _ (by grind) (by simp) (.inr rfl))
  | bit1 b hk h h' ih ih' =>
    intro d o' hn hp ho
    obtain rfl := same rfl ho
    exact .bit1 b hk (ih d _ (by grind) (by simp) (.inr rfl))
      (ih' d _ (by grind) (by simp) (.inr rfl))
  | bit b h h' ih ih' =>
    intro d o' hn hp ho
    obtain rfl := same rfl ho
    exact .bit b (ih d _ (by grind) (by simp) (.inr rfl))
      (ih' d _ (by grind) (by simp) (.inr rfl))
  | shift1 b hk h h' ih ih' =>
    intro d o' hn hp ho
    obtain rfl := same rfl ho
    exact .shift1 b hk (ih d _ (by grind) (by simp) (.inr rfl))
      (ih' d _ (by grind) (by simp) (.inr rfl))
  | arith h ih =>
    intro d o' hn hp ho
    obtain rfl := same rfl ho
    exact .arith (ih d _ (by grind) (by simp) (.inr rfl))
  | arithBit k h ih =>
    intro d o' hn hp ho
    obtain rfl := same rfl ho
    exact .arithBit k (ih d _ (by grind) (by simp) (.inr rfl))
  | arithShift h ih =>
    intro d o' hn hp ho
    obtain rfl := same rfl ho
    exact .arithShift (ih d _ (by grind) (by simp) (.inr rfl))
  | cmp0 h ih =>
    intro d o' hn hp ho
    obtain rfl := same rfl ho
    exact .cmp0 (ih d _ (by grind) (by simp) (.inr rfl))
  | cmp b h hk h' ih ih' =>
    intro d o' hn hp ho
    obtain rfl := same rfl ho
    exact .cmp b (ih d _ (by grind) (by simp) (.inr rfl)) hk
      (ih' d _ (by grind) (by simp) (.inr rfl))
  | swap b h hk h' ih ih' =>
    intro d o' hn hp ho
    obtain rfl := same rfl ho
    exact .swap b (ih d _ (by grind) (by simp) (.inr rfl)) hk
      (ih' d _ (by grind) (by simp) (.inr rfl))
  | logic1 b hk h h' ih ih' =>
    intro d o' hn hp ho
    obtain rfl := same rfl ho
    exact .logic1 b hk (ih d _ (by grind) (by simp) (.inr rfl))
      (ih' d _ (by grind) (by simp) (.inr rfl))
  | logic b h h' ih ih' =>
    intro d o' hn hp ho
    obtain rfl := same rfl ho
    exact .logic b (ih d _ (by grind) (by simp) (.inr rfl))
      (ih' d _ (by grind) (by simp) (.inr rfl))
  | logical0 h ih =>
    intro d o' hn hp ho
    obtain rfl := same rfl ho
    exact .logical0 (ih d _ (by grind) (by simp) (.inr rfl))
  | logical k h ih =>
    intro d o' hn hp ho
    obtain rfl := same rfl ho
    exact .logical k (ih d _ (by grind) (by simp) (.inr rfl))
  | cond0 h ih =>
    intro d o' hn hp ho
    obtain rfl := same rfl ho
    exact .cond0 (ih d _ (by grind) (by simp) (.inr rfl))
  | cond b b' h h1 h' ih ih1 ih' =>
    intro d o' hn hp ho
    obtain rfl := same rfl ho
    exact .cond b b' (ih d _ (by grind) (by simp) (.inr rfl))
      (ih1 d _ (by grind) (by simp) (.inr rfl)) (ih' d _ (by grind) (by simp) (.inr rfl))
  | stream0 h ih =>
    intro d o' hn hp ho
    obtain rfl := same rfl ho
    exact .stream0 (ih d _ (by grind) (by simp) (.inr rfl))
  | stream b h h' hc ih ih' =>
    intro d o' hn hp ho
    obtain rfl := same rfl ho
    exact .stream b (ih d _ (by grind) (by simp) (.inr rfl))
      (ih' d _ (by grind) (by simp) (.inr rfl)) hc
  | async b h ht ih =>
    intro d o' hn hp ho
    obtain rfl := same rfl ho
    exact .async b (ih d _ (by grind) (by simp) (.inr rfl)) ht
  | rhs h ih =>
    intro d o' hn hp ho
    obtain rfl := same rfl ho
    exact .rhs (ih d _ (by grind) (by simp) (.inr rfl))
  | rhsAsync h ih =>
    intro d o' hn hp ho
    obtain rfl := same rfl ho
    exact .rhsAsync (ih d _ (by grind) (by simp) (.inr rfl))
  | yield b hc h ih =>
    intro d o' hn hp ho
    obtain rfl := same rfl ho
    exact .yield b hc (ih d _ (by grind) (by simp) (.inr rfl))
  | yieldAsync b hc h ih =>
    intro d o' hn hp ho
    obtain rfl := same rfl ho
    exact .yieldAsync b hc (ih d _ (by grind) (by simp) (.inr rfl))

end Verif.Expr
