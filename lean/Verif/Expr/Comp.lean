import Verif.Expr.First

/-!
# The parser finds every phrase of the grammar: brackets, lists and members
-/

namespace Verif.Expr

/-- What may continue an expression, by the level of the operator. -/
def level : Kind → Nat
  | .op .lambda => 0
  | .op .dot => 1
  | .sep .parenOpen | .sep .squareOpen => 1
  | .op o =>
    if .op o ∈ mulOps ∨ .op o ∈ addOps ∨ o ∈ bitOps ∨ .op o ∈ shiftOps then 2
    else if .op o ∈ cmpOps then 3
    else if o ∈ logicOps then 4
    else if o = .tri then 5
    else if o = .arrow then 6
    else 7
  | .kw .in | .kw .instanceof | .kw .propertyof => 3
  | _ => 7

/-- A phrase of level `l` ends in front of `rest`. -/
def Stop (l : Nat) (w : Bool) (rest : Toks) : Prop :=
  l < level (peek rest).kind ∧ (w = true → 6 < level (peek rest).kind)

theorem Stop.mono {l l' : Nat} {w : Bool} {rest : Toks} (h : Stop l w rest) (hl : l' ≤ l) :
    Stop l' w rest := ⟨Nat.lt_of_le_of_lt hl h.1, h.2⟩

theorem Stop.end {l : Nat} {w : Bool} {rest : Toks} (h : 6 < level (peek rest).kind)
    (hl : l ≤ 6) : Stop l w rest := ⟨Nat.lt_of_le_of_lt hl h, fun _ => h⟩

theorem Stop.op {l : Nat} {k : Kind} {b : Bool} {rest : Toks} (h : l < level k) :
    Stop l false (⟨k, b⟩ :: rest) := ⟨h, fun h => by cases h⟩

/-- The result is this one, or the tree is too deep, which takes more than `d` levels. -/
def OkOr {α : Type} (c : Cfg) (d : Nat) (x : Res α) (a : α) (r : Toks) : Prop :=
  x = .ok a r ∨ (x = .err .depth ∧ c.max < d)

section
variable {c : Cfg} {d : Nat}

theorem OkOr.ok {α : Type} {a : α} {r : Toks} : OkOr c d (.ok a r) a r := .inl rfl

theorem OkOr.mono {α : Type} {d d' : Nat} {x : Res α} {a : α} {r : Toks} (h : OkOr c d x a r)
    (hd : d ≤ d') : OkOr c d' x a r :=
  h.imp id fun h => ⟨h.1, Nat.lt_of_lt_of_le h.2 hd⟩

theorem OkOr.andThen {α β : Type} {x : Res α} {a : α} {r : Toks} {f : α → Toks → Res β} {b : β}
    {r' : Toks} (h : OkOr c d x a r) (hf : OkOr c d (f a r) b r') :
    OkOr c d (x.andThen f) b r' := by
  rcases h with rfl | ⟨rfl, h⟩
  · exact hf
  · exact .inr ⟨rfl, h⟩

theorem OkOr.deeper {α : Type} {e : Env} {k : Env → Res α} {a : α} {r : Toks}
    (hd : e.depth + 1 ≤ d) (h : OkOr c d (k { e with depth := e.depth + 1 }) a r) :
    OkOr c d (deeper c e k) a r := by
  unfold Expr.deeper
  split
  · next hm => exact .inr ⟨rfl, by omega⟩
  · exact h

theorem assume_sep {α : Type} {s : Sep} {b : Bool} {r : Toks} {k : Toks → Res α} :
    assume s (⟨.sep s, b⟩ :: r) k = k r := by
  simp [assume, peek, Tok.isSep]

/-- `rhs` finds the phrases of fewer than `n` tokens. -/
def Complete (c : Cfg) (rhs : P) (n : Nat) : Prop :=
  ∀ {d : Nat} {e : Env} {x : Ctx} {o w : Bool} {pre : Toks} {t : Ast} {rest : Toks},
    e.ctx = x → e.outer = o → pre.length < n → e.depth + pre.length + 1 ≤ d →
    G c.dial .rhs x o w pre t → 6 < level (peek rest).kind →
    OkOr c d (rhs e (pre ++ rest)) t rest

/-- What stands behind an element of a list. -/
def Delim (rest : Toks) : Prop :=
  ∃ s b r, rest = ⟨.sep s, b⟩ :: r ∧
    (s = .comma ∨ s = .parenClose ∨ s = .squareClose ∨ s = .curlyClose ∨ s = .colon)

theorem Delim.level {rest : Toks} (h : Delim rest) : 6 < level (peek rest).kind := by
  obtain ⟨s, b, r, rfl, h⟩ := h
  rcases h with rfl | rfl | rfl | rfl | rfl <;> exact Nat.lt_succ_self 6

theorem Delim.more {rest : Toks} (h : Delim rest) : (peek rest).isOp .more = false := by
  obtain ⟨s, b, r, rfl, h⟩ := h
  rfl

theorem Delim.comma {b : Bool} {r : Toks} : Delim (⟨.sep .comma, b⟩ :: r) :=
  ⟨_, _, _, rfl, .inl rfl⟩

variable {rhs : P} {n : Nat}

theorem many_inj {l l' : List Ast} (h : many l = many l') : l = l' := by
  simpa [many] using h

theorem item_reach (hr : Complete c rhs n) {e : Env} (he : e.outer = false) {pre rest : Toks}
    {t : Ast} {α : Type} {f : Ast → Toks → Res α} {a : α} {r : Toks} (hn : pre.length < n)
    (hd : e.depth + pre.length + 1 ≤ d) (h : G c.dial .item e.ctx false false pre t)
    (hrest : Delim rest) (hf : OkOr c d (f t rest) a r) :
    OkOr c d ((rhs e (pre ++ rest)).andThen fun v r => f (expanded v r).1 (expanded v r).2) a r := by
  cases h with
  | item h =>
    refine (hr rfl he hn hd h hrest.level).andThen ?_
    have : expanded t rest = (t, rest) := by
      unfold expanded
      rw [hrest.more]; rfl
    rw [this]
    exact hf
  | @expand _ _ _ ts t b h =>
    rw [List.append_assoc]
    simp only [List.length_append, List.length_cons, List.length_nil] at hn hd
    refine (hr (rest := ⟨.op .more, b⟩ :: rest) rfl he (by omega) (by omega) h
      (show 6 < Expr.level (.op .more) by decide)).andThen ?_
    exact hf

/-- Reading a list: `B` is what holds at the beginning of an element, `A` behind one. -/
theorem items_reach {x : Ctx} {A B : List Ast → Toks → Prop} {N : Nat}
    (hB : ∀ acc pre t rest, pre.length ≤ N → G c.dial .item x false false pre t → Delim rest →
      A (acc ++ [t]) rest → B acc (pre ++ rest))
    (hA : ∀ acc b rest, B acc rest → A acc (⟨.sep .comma, b⟩ :: rest)) :
    ∀ (m : Nat) (pre : Toks) (t : Ast) (rest : Toks), pre.length ≤ m → pre.length ≤ N →
      G c.dial .items x false false pre t → Delim rest →
      ∃ l, t = many l ∧ (A l rest → B [] (pre ++ rest)) := by
  intro m
  induction m with
  | zero =>
    intro pre t rest hm hN h hd
    cases h with
    | items1 h => exact ⟨_, rfl, fun ha => hB [] _ _ _ hN h hd ha⟩
    | items b h h' => simp at hm
  | succ m ih =>
    intro pre t rest hm hN h hd
    cases h with
    | items1 h => exact ⟨_, rfl, fun ha => hB [] _ _ _ hN h hd ha⟩
    | @items _ _ as l ts t b h h' =>
      simp only [List.length_append, List.length_cons] at hm hN
      obtain ⟨l', h1, h2⟩ := ih as _ (⟨.sep .comma, b⟩ :: ts ++ rest) (by omega) (by omega) h
        .comma
      obtain rfl := many_inj h1
      refine ⟨_, rfl, fun ha => ?_⟩
      rw [List.append_assoc]
      exact h2 (hA _ _ _ (hB _ _ _ _ (by omega) h' hd ha))

theorem starts_not_sep {s : Kind → Bool} {ts rest : Toks} (h : Head s ts) {k : Kind}
    (hk : s k = false) : (peek (ts ++ rest)).kind ≠ k := by
  obtain ⟨t, r, rfl, h2, -⟩ := h
  intro h
  change t.kind = k at h
  rw [h, hk] at h2; cases h2

theorem isSep_ne {t : Tok} {s : Sep} (h : t.kind ≠ .sep s) : t.isSep s = false := by
  simp [Tok.isSep, h]

theorem isOp_ne {t : Tok} {o : Op} (h : t.kind ≠ .op o) : t.isOp o = false := by
  simp [Tok.isOp, h]

theorem isKw_ne {t : Tok} {o : Kw} (h : t.kind ≠ .kw o) : t.isKw o = false := by
  simp [Tok.isKw, h]

theorem item_head {dl : Dialect} {x : Ctx} {o : Bool} {pre : Toks} {t : Ast}
    (h : G dl .item x o false pre t) :
    ∃ tk r, pre = tk :: r ∧ startsRhs tk.kind = true ∧
      (isIdent tk.kind = true → r = [] ∨ (peek r).kind ≠ .op .set) := by
  have key : ∀ {ts}, Head startsRhs ts → ∃ tk r, ts = tk :: r ∧ startsRhs tk.kind = true ∧
      (isIdent tk.kind = true → r = [] ∨ (peek r).kind ≠ .op .set) := by
    rintro ts ⟨tk, r, h1, h2, h3⟩
    refine ⟨tk, r, h1, h2, fun hi => (h3 hi).imp id fun h4 h5 => ?_⟩
    rw [h5] at h4; cases h4
  cases h with
  | item h => exact key (begins h)
  | expand b h =>
    obtain ⟨tk, r, rfl, h2, h3⟩ := key (begins h)
    refine ⟨tk, r ++ [⟨.op .more, b⟩], rfl, h2, fun hi => .inr ?_⟩
    rcases h3 hi with rfl | h3
    · simp [peek]
    · cases r with
      | nil => simp [peek]
      | cons u r => exact h3

theorem array_reach (hr : Complete c rhs n) {e : Env} (he : e.outer = false) {pre rest : Toks}
    {l : List Ast} {b : Bool} (hn : pre.length < n) (hd : e.depth + pre.length + 1 ≤ d)
    (h : G c.dial .elements e.ctx false false pre (many l)) :
    ∀ f, (pre ++ ⟨.sep .squareClose, b⟩ :: rest).length < f →
      OkOr c d (arrayLoop rhs e f [] (pre ++ ⟨.sep .squareClose, b⟩ :: rest)) (.array l) rest := by
  have close : ∀ (acc : List Ast) f, OkOr c d
      (arrayLoop rhs e (f + 1) acc (⟨.sep .squareClose, b⟩ :: rest)) (.array acc) rest :=
    fun acc f => .ok
  have hdel : Delim (⟨.sep .squareClose, b⟩ :: rest) := ⟨_, _, _, rfl, by simp⟩
  -- behind an element
  let A (acc : List Ast) (ts : Toks) : Prop := ∀ f, ts.length ≤ f → OkOr c d
    (if (peek ts).isSep .comma then arrayLoop rhs e f acc ts.tail
      else assume .squareClose ts fun r' => .ok (.array acc) r') (.array l) rest
  let B (acc : List Ast) (ts : Toks) : Prop := ∀ f, ts.length < f →
    OkOr c d (arrayLoop rhs e f acc ts) (.array l) rest
  have hB : ∀ acc p t r, p.length ≤ pre.length → G c.dial .item e.ctx false false p t → Delim r →
      A (acc ++ [t]) r → B acc (p ++ r) := by
    intro acc p t r hp hg hdl ha f hf
    cases f with
    | zero => cases hf
    | succ f =>
      obtain ⟨tk, p', h1, h2, -⟩ := item_head hg
      unfold arrayLoop
      rw [isSep_ne (by
        rw [h1]; intro h3; change tk.kind = _ at h3; rw [h3] at h2; cases h2)]
      simp only [Bool.false_eq_true, if_false]
      refine item_reach hr he (by omega) (by omega) hg hdl
        (f := fun t r => if (peek r).isSep .comma then arrayLoop rhs e f (acc ++ [t]) r.tail
          else assume .squareClose r fun r' => .ok (.array (acc ++ [t])) r') ?_
      refine ha f ?_
      rw [h1] at hf
      simp only [List.length_append, List.length_cons] at hf
      omega
  have hA : ∀ acc b r, B acc r → A acc (⟨.sep .comma, b⟩ :: r) := by
    intro acc b r hb f hf
    have : (peek (⟨.sep .comma, b⟩ :: r : Toks)).isSep .comma = true := rfl
    rw [this]
    exact hb f hf
  have key : ∀ p t rest', p.length ≤ pre.length → G c.dial .items e.ctx false false p t →
      Delim rest' → ∃ l, t = many l ∧ (A l rest' → B [] (p ++ rest')) := fun p t rest' hp hg hd =>
    items_reach hB hA p.length p t rest' (Nat.le_refl _) hp hg hd
  have hend : A l (⟨.sep .squareClose, b⟩ :: rest) := by
    intro f _
    have : (peek (⟨.sep .squareClose, b⟩ :: rest : Toks)).isSep .comma = false := rfl
    rw [this]
    simp only [Bool.false_eq_true, if_false]
    rw [assume_sep]
    exact .ok
  intro f hf
  generalize ht : many l = t at h
  cases h with
  | elements0 =>
    obtain rfl := many_inj ht
    cases f with
    | zero => cases hf
    | succ f => exact close [] f
  | elements h =>
    obtain ⟨l', h1, h2⟩ := key _ _ _ (Nat.le_refl _) h hdel
    obtain rfl := many_inj (ht.trans h1)
    exact h2 hend f hf
  | @elementsComma _ _ ts _ b' h =>
    obtain ⟨l', h1, h2⟩ := key ts _ (⟨.sep .comma, b'⟩ :: ⟨.sep .squareClose, b⟩ :: rest)
      (by simp) h .comma
    obtain rfl := many_inj (ht.trans h1)
    rw [List.append_assoc] at hf ⊢
    refine h2 (hA _ _ _ ?_) f hf
    intro f hf
    cases f with
    | zero => cases hf
    | succ f => exact close l f

theorem args_reach (hr : Complete c rhs n) {e : Env} (he : e.outer = false) {pre rest : Toks}
    {l : List Ast} {b : Bool} (g : Ast) (hn : pre.length < n) (hd : e.depth + pre.length + 1 ≤ d)
    (h : G c.dial .items e.ctx false false pre (many l)) :
    ∀ f, (pre ++ ⟨.sep .parenClose, b⟩ :: rest).length < f →
      OkOr c d (argLoop rhs e g f [] (pre ++ ⟨.sep .parenClose, b⟩ :: rest)) (.call g l) rest := by
  have hdel : Delim (⟨.sep .parenClose, b⟩ :: rest) := ⟨_, _, _, rfl, by simp⟩
  -- behind an element
  let A (acc : List Ast) (ts : Toks) : Prop := ∀ f, ts.length ≤ f → OkOr c d
    (if (peek ts).isSep .parenClose then .ok (.call g acc) ts.tail
      else assume .comma ts fun r' => argLoop rhs e g f acc r') (.call g l) rest
  let B (acc : List Ast) (ts : Toks) : Prop := ∀ f, ts.length < f →
    OkOr c d (argLoop rhs e g f acc ts) (.call g l) rest
  have hB : ∀ acc p t r, p.length ≤ pre.length → G c.dial .item e.ctx false false p t → Delim r →
      A (acc ++ [t]) r → B acc (p ++ r) := by
    intro acc p t r hp hg hdl ha f hf
    cases f with
    | zero => cases hf
    | succ f =>
      obtain ⟨tk, p', h1, h2, -⟩ := item_head hg
      unfold argLoop
      refine item_reach hr he (by omega) (by omega) hg hdl
        (f := fun t r => if (peek r).isSep .parenClose then .ok (.call g (acc ++ [t])) r.tail
          else assume .comma r fun r' => argLoop rhs e g f (acc ++ [t]) r') ?_
      refine ha f ?_
      rw [h1] at hf
      simp only [List.length_append, List.length_cons] at hf
      omega
  have hA : ∀ acc b r, B acc r → A acc (⟨.sep .comma, b⟩ :: r) := by
    intro acc b r hb f hf
    have : (peek (⟨.sep .comma, b⟩ :: r : Toks)).isSep .parenClose = false := rfl
    rw [this]
    simp only [Bool.false_eq_true, if_false]
    rw [assume_sep]
    exact hb f hf
  obtain ⟨l', h1, h2⟩ := items_reach hB hA _ pre _ _ (Nat.le_refl _) (Nat.le_refl _) h hdel
  obtain rfl := many_inj h1
  exact h2 fun f _ => .ok

theorem args_not_named {dl : Dialect} {x : Ctx} {o : Bool} :
    ∀ (m : Nat) {pre : Toks} {t : Ast} {rest : Toks}, pre.length ≤ m →
      G dl .items x o false pre t → (peek rest).kind ≠ .op .set →
      ∃ tk r, pre = tk :: r ∧ startsRhs tk.kind = true ∧
        (isIdent tk.kind = true → (peek (r ++ rest)).kind ≠ .op .set) := by
  intro m
  have key : ∀ {pre t rest}, G dl .item x o false pre t → (peek rest).kind ≠ .op .set →
      ∃ tk r, pre = tk :: r ∧ startsRhs tk.kind = true ∧
        (isIdent tk.kind = true → (peek (r ++ rest)).kind ≠ .op .set) := by
    intro pre t rest h hrest
    obtain ⟨tk, r, h1, h2, h3⟩ := item_head h
    refine ⟨tk, r, h1, h2, fun hi => ?_⟩
    cases r with
    | nil => exact hrest
    | cons u r =>
      rcases h3 hi with h3 | h3
      · cases h3
      · exact h3
  induction m with
  | zero =>
    intro pre t rest hm h hrest
    cases h with
    | items1 h => exact key h hrest
    | items b h h' => simp at hm
  | succ m ih =>
    intro pre t rest hm h hrest
    cases h with
    | items1 h => exact key h hrest
    | @items _ _ as l ts t b h h' =>
      simp only [List.length_append, List.length_cons] at hm
      obtain ⟨tk, r, rfl, h2, h3⟩ := ih (rest := ⟨.sep .comma, b⟩ :: ts ++ rest) (by omega) h
        (by simp [peek])
      exact ⟨tk, r ++ ⟨.sep .comma, b⟩ :: ts, rfl, h2, fun hi => by
        rw [List.append_assoc]; exact h3 hi⟩

theorem named_reach (hr : Complete c rhs n) {e : Env} (he : e.outer = false) {rest : Toks}
    {L : List Ast} (g : Ast) {N : Nat} (hn : N < n) (hd : e.depth + N + 1 ≤ d) :
    ∀ (m : Nat) (pre : Toks) (t : Ast) (rest' : Toks), pre.length ≤ m → pre.length ≤ N →
      G c.dial .named e.ctx false false pre t → Delim rest' →
      ∃ l, t = many l ∧
        ((∀ f, rest'.length ≤ f → OkOr c d
          (if (peek rest').isSep .parenClose then .ok (.call g [.named l]) rest'.tail
            else assume .comma rest' fun r' => namedLoop rhs e g f l r')
          (.call g [.named L]) rest) →
        (∀ f, (pre ++ rest').length < f →
          OkOr c d (namedLoop rhs e g f [] (pre ++ rest')) (.call g [.named L]) rest)) := by
  have one : ∀ acc (x : Nat) b b' w ts t rest', ts.length ≤ N →
      G c.dial .rhs e.ctx false w ts t → Delim rest' →
      (∀ f, rest'.length ≤ f → OkOr c d
          (if (peek rest').isSep .parenClose then
            .ok (.call g [.named (acc ++ [.prop (.ident x) t])]) rest'.tail
            else assume .comma rest' fun r' =>
              namedLoop rhs e g f (acc ++ [.prop (.ident x) t]) r')
          (.call g [.named L]) rest) →
      (∀ f, (⟨.ident x, b⟩ :: ⟨.op .set, b'⟩ :: ts ++ rest').length < f →
        OkOr c d (namedLoop rhs e g f acc (⟨.ident x, b⟩ :: ⟨.op .set, b'⟩ :: ts ++ rest'))
          (.call g [.named L]) rest) := by
    intro acc x b b' w ts t rest' hts hg hdl h f hf
    cases f with
    | zero => cases hf
    | succ f =>
      change OkOr c d ((rhs e (ts ++ rest')).andThen _) _ _
      refine (hr rfl he (by omega) (by omega) hg hdl.level).andThen (h f ?_)
      simp only [List.length_append, List.length_cons] at hf
      omega
  intro m
  induction m with
  | zero =>
    intro pre t rest' hm hN h hdl
    cases h with
    | named1 => simp at hm
    | named => simp at hm
  | succ m ih =>
    intro pre t rest' hm hN h hdl
    cases h with
    | @named1 _ _ w ts t x b b' h =>
      refine ⟨_, rfl, fun hf => one [] x b b' w ts t rest' ?_ h hdl hf⟩
      simp only [List.length_cons] at hN
      omega
    | @named _ _ w as l ts t x b b' b'' h h' =>
      simp only [List.length_append, List.length_cons] at hm hN
      obtain ⟨l', h1, h2⟩ := ih as _ (⟨.sep .comma, b⟩ :: ⟨.ident x, b'⟩ :: ⟨.op .set, b''⟩ :: ts
        ++ rest') (by omega) (by omega) h .comma
      obtain rfl := many_inj h1
      refine ⟨_, rfl, fun hf => ?_⟩
      rw [List.append_assoc]
      refine h2 fun f hlen => ?_
      have : (peek (⟨.sep .comma, b⟩ :: ⟨.ident x, b'⟩ :: ⟨.op .set, b''⟩ :: ts
        ++ rest' : Toks)).isSep .parenClose = false := rfl
      rw [this]
      simp only [Bool.false_eq_true, if_false]
      change OkOr c d (namedLoop rhs e g f l (⟨.ident x, b'⟩ :: ⟨.op .set, b''⟩ :: ts ++ rest')) _ _
      refine one l x b' b'' w ts t rest' (by omega) h' hdl hf f ?_
      simp only [List.length_append, List.length_cons] at hlen ⊢
      omega

theorem props_reach (hr : Complete c rhs n) (hemp : c.dial.emptyProps = false) {e : Env}
    (he : e.outer = false) {rest : Toks} {L : List Ast} {N : Nat} (hn : N < n)
    (hd : e.depth + N + 1 ≤ d) :
    ∀ (m : Nat) (pre : Toks) (t : Ast) (rest' : Toks), pre.length ≤ m → pre.length ≤ N →
      G c.dial .props e.ctx false false pre t → Delim rest' →
      ∃ l, t = many l ∧
        ((∀ f, rest'.length < f →
          OkOr c d (objectLoop rhs e f false l rest') (.object L) rest) →
        (∀ f, (pre ++ rest').length < f →
          OkOr c d (objectLoop rhs e f true [] (pre ++ rest')) (.object L) rest)) := by
  have one : ∀ acc (k : Kind) b b' w ts t rest', Name k → ts.length ≤ N →
      G c.dial .rhs e.ctx false w ts t → Delim rest' →
      (∀ f, rest'.length < f →
        OkOr c d (objectLoop rhs e f false (acc ++ [.prop k t]) rest') (.object L) rest) →
      (∀ f, (⟨k, b⟩ :: ⟨.sep .colon, b'⟩ :: ts ++ rest').length < f →
        OkOr c d (objectLoop rhs e f true acc (⟨k, b⟩ :: ⟨.sep .colon, b'⟩ :: ts ++ rest'))
          (.object L) rest) := by
    intro acc k b b' w ts t rest' hk hts hg hdl h f hf
    cases f with
    | zero => cases hf
    | succ f =>
      have step : objectLoop rhs e (f + 1) true acc (⟨k, b⟩ :: ⟨.sep .colon, b'⟩ :: ts ++ rest') =
          (rhs e (ts ++ rest')).andThen fun v r' =>
            objectLoop rhs e f false (acc ++ [.prop k v]) r' := by
        cases hk <;> rfl
      rw [step]
      refine (hr rfl he (by omega) (by omega) hg hdl.level).andThen (h f ?_)
      simp only [List.length_append, List.length_cons] at hf
      omega
  intro m
  induction m with
  | zero =>
    intro pre t rest' hm hN h hdl
    cases h with
    | props1 => simp at hm
    | props => simp at hm
    | propsEmpty b hp => rw [hemp] at hp; cases hp
  | succ m ih =>
    intro pre t rest' hm hN h hdl
    cases h with
    | propsEmpty b hp => rw [hemp] at hp; cases hp
    | @props1 _ _ w k ts t b b' hk h =>
      refine ⟨_, rfl, fun hf => one [] k b b' w ts t rest' hk ?_ h hdl hf⟩
      simp only [List.length_cons] at hN
      omega
    | @props _ _ w as l k ts t b b' b'' h hk h' =>
      simp only [List.length_append, List.length_cons] at hm hN
      obtain ⟨l', h1, h2⟩ := ih as _ (⟨.sep .comma, b⟩ :: ⟨k, b'⟩ :: ⟨.sep .colon, b''⟩ :: ts
        ++ rest') (by omega) (by omega) h .comma
      obtain rfl := many_inj h1
      refine ⟨_, rfl, fun hf => ?_⟩
      rw [List.append_assoc]
      refine h2 fun f hlen => ?_
      cases f with
      | zero => cases hlen
      | succ f =>
        change OkOr c d (objectLoop rhs e f true l
          (⟨k, b'⟩ :: ⟨.sep .colon, b''⟩ :: ts ++ rest')) _ _
        refine one l k b' b'' w ts t rest' hk (by omega) h' hdl hf f ?_
        simp only [List.length_append, List.length_cons] at hlen ⊢
        omega

theorem object_reach (hr : Complete c rhs n) (hemp : c.dial.emptyProps = false) {e : Env}
    (he : e.outer = false) {pre rest : Toks} {l : List Ast} {b : Bool} (hn : pre.length < n)
    (hd : e.depth + pre.length + 1 ≤ d)
    (h : G c.dial .fields e.ctx false false pre (many l)) :
    ∀ f, (pre ++ ⟨.sep .curlyClose, b⟩ :: rest).length < f →
      OkOr c d (objectLoop rhs e f true [] (pre ++ ⟨.sep .curlyClose, b⟩ :: rest)) (.object l)
        rest := by
  have close : ∀ (cm : Bool) (acc : List Ast) f,
      (⟨.sep .curlyClose, b⟩ :: rest : Toks).length < f → OkOr c d
      (objectLoop rhs e f cm acc (⟨.sep .curlyClose, b⟩ :: rest)) (.object acc) rest := by
    intro cm acc f hf
    cases f with
    | zero => cases hf
    | succ f => exact .ok
  have hdel : Delim (⟨.sep .curlyClose, b⟩ :: rest) := ⟨_, _, _, rfl, by simp⟩
  intro f hf
  generalize ht : many l = t at h
  cases h with
  | fields0 =>
    obtain rfl := many_inj ht
    exact close true [] f hf
  | fields h =>
    obtain ⟨l', h1, h2⟩ := props_reach hr hemp he (L := l) hn hd _ _ _ _ (Nat.le_refl _)
      (Nat.le_refl _) h hdel
    obtain rfl := many_inj (ht.trans h1)
    exact h2 (close false l) f hf
  | @fieldsComma _ _ ts _ b' h =>
    obtain ⟨l', h1, h2⟩ := props_reach hr hemp he (L := l) (rest := rest) hn hd _ _ _
      (⟨.sep .comma, b'⟩ :: ⟨.sep .curlyClose, b⟩ :: rest) (Nat.le_refl _)
      (by simp) h .comma
    obtain rfl := many_inj (ht.trans h1)
    rw [List.append_assoc] at hf ⊢
    refine h2 (fun f hf => ?_) f hf
    cases f with
    | zero => cases hf
    | succ f =>
      change OkOr c d (objectLoop rhs e f true l (⟨.sep .curlyClose, b⟩ :: rest)) _ _
      exact close true l f (Nat.lt_of_succ_lt_succ hf)

/-- What follows a parameter. -/
def paramNext (c : Cfg) (rhs : P) (e : Env) (f nd : Nat) (hd : Bool) (acc : List Ast) (r : Toks) :
    Res Ast :=
  if (peek r).isSep .comma then
    if (peek r.tail).isSep .parenClose && !c.rules.trailingParam then .err .syntax
    else paramLoop c rhs e f nd hd acc r.tail
  else closeParams acc r

theorem paramLoop_def {e : Env} {f nd : Nat} {hd : Bool} {acc : List Ast} {x : Nat}
    {b b' : Bool} {ts : Toks} (hnd : nd ≤ 255) :
    paramLoop c rhs e (f + 1) nd hd acc (⟨.ident x, b⟩ :: ⟨.op .set, b'⟩ :: ts) =
      (rhs e ts).andThen fun v r =>
        paramNext c rhs e f nd true (acc ++ [.mk .assignment none [.ident x, v]]) r := by
  have h1 : (peek (⟨.ident x, b⟩ :: ⟨.op .set, b'⟩ :: ts : Toks).tail).op = 0x10 := rfl
  have h2 : ¬nd > 255 := by omega
  have h3 : (peek (⟨.ident x, b⟩ :: ⟨.op .set, b'⟩ :: ts)).kind = .ident x := rfl
  unfold paramLoop
  simp only [h3, h1, if_true, h2, if_false]
  rfl

theorem paramLoop_plain {e : Env} {f nd : Nat} {acc : List Ast} {x : Nat}
    {b : Bool} {ts : Toks} (h1 : (peek ts).kind ≠ .op .set) (h2 : (peek ts).kind ≠ .op .more) :
    paramLoop c rhs e (f + 1) nd false acc (⟨.ident x, b⟩ :: ts) =
      paramNext c rhs e f (nd + 1) false (acc ++ [.ident x]) ts := by
  have h3 : (peek (⟨.ident x, b⟩ :: ts)).kind = .ident x := rfl
  have h4 : ¬(peek (⟨.ident x, b⟩ :: ts : Toks).tail).op = 0x10 := fun h => h1 ((code_set _).1 h)
  have h5 : (peek (⟨.ident x, b⟩ :: ts : Toks).tail).isOp .more = false := isOp_ne h2
  unfold paramLoop
  simp only [h3, h4, h5, if_false, Bool.false_eq_true]
  rfl

theorem paramNext_comma {e : Env} {f nd : Nat} {hd : Bool} {acc : List Ast} {x : Nat}
    {b b' : Bool} {ts : Toks} :
    paramNext c rhs e f nd hd acc (⟨.sep .comma, b⟩ :: ⟨.ident x, b'⟩ :: ts) =
      paramLoop c rhs e f nd hd acc (⟨.ident x, b'⟩ :: ts) := rfl

theorem Delim.ne_op {rest : Toks} (h : Delim rest) (o : Op) : (peek rest).kind ≠ .op o := by
  obtain ⟨s, b, r, rfl, -⟩ := h
  exact nofun

theorem plain_reach {e : Env} {L rest} :
    ∀ (m : Nat) (pre : Toks) (t : Ast) (rest' : Toks), pre.length ≤ m →
      G c.dial .plain e.ctx false false pre t → Delim rest' →
      ∃ l, t = many l ∧
        ((∀ f, rest'.length ≤ f →
          OkOr c d (paramNext c rhs e f l.length false l rest') (.params L) rest) →
        (∀ f, (pre ++ rest').length < f →
          OkOr c d (paramLoop c rhs e f 0 false [] (pre ++ rest')) (.params L) rest)) := by
  intro m
  induction m with
  | zero =>
    intro pre t rest' hm h hdl
    cases h with
    | plain1 => simp at hm
    | plain => simp at hm
  | succ m ih =>
    intro pre t rest' hm h hdl
    cases h with
    | plain1 x b =>
      refine ⟨_, rfl, fun hf f hlen => ?_⟩
      cases f with
      | zero => cases hlen
      | succ f =>
        rw [List.cons_append, List.nil_append, paramLoop_plain (hdl.ne_op _) (hdl.ne_op _)]
        exact hf f (by simp at hlen; omega)
    | @plain _ _ as l x b b' h =>
      simp only [List.length_append, List.length_cons, List.length_nil] at hm
      obtain ⟨l', h1, h2⟩ := ih as _ (⟨.sep .comma, b⟩ :: ⟨.ident x, b'⟩ :: rest')
        (by omega) h .comma
      obtain rfl := many_inj h1
      refine ⟨_, rfl, fun hf => ?_⟩
      rw [List.append_assoc]
      refine h2 fun f hlen => ?_
      rw [paramNext_comma]
      cases f with
      | zero => cases hlen
      | succ f =>
        rw [paramLoop_plain (hdl.ne_op _) (hdl.ne_op _)]
        have := hf f (by simp at hlen; omega)
        simpa using this

theorem defs_reach (hr : Complete c rhs n) {e : Env} (he : e.outer = false)
    {rest : Toks} {L : List Ast} {N : Nat} (hn : N < n) (hd : e.depth + N + 1 ≤ d) :
    ∀ (m : Nat) (pre : Toks) (t : Ast) (rest' : Toks), pre.length ≤ m → pre.length ≤ N →
      G c.dial .defs e.ctx false false pre t → Delim rest' →
      ∃ l, t = many l ∧
        ((∀ f nd, nd ≤ 255 → rest'.length ≤ f →
          OkOr c d (paramNext c rhs e f nd true l rest') (.params L) rest) →
        (∀ f, (pre ++ rest').length < f →
          OkOr c d (paramLoop c rhs e f 0 false [] (pre ++ rest')) (.params L) rest)) := by
  have one : ∀ acc (x : Nat) b b' w nd hd ts t rest', nd ≤ 255 → ts.length ≤ N →
      G c.dial .rhs e.ctx false w ts t → Delim rest' →
      (∀ f nd, nd ≤ 255 → rest'.length ≤ f → OkOr c d
        (paramNext c rhs e f nd true (acc ++ [.mk .assignment none [.ident x, t]]) rest')
        (.params L) rest) →
      (∀ f, (⟨.ident x, b⟩ :: ⟨.op .set, b'⟩ :: ts ++ rest').length < f →
        OkOr c d (paramLoop c rhs e f nd hd acc (⟨.ident x, b⟩ :: ⟨.op .set, b'⟩ :: ts ++ rest'))
          (.params L) rest) := by
    intro acc x b b' w nd hd ts t rest' hnd hts hg hdl h f hf
    cases f with
    | zero => cases hf
    | succ f =>
      rw [List.cons_append, List.cons_append, paramLoop_def hnd]
      refine (hr rfl he (by omega) (by omega) hg hdl.level).andThen (h f nd hnd ?_)
      simp only [List.length_append, List.length_cons] at hf
      omega
  intro m
  induction m with
  | zero =>
    intro pre t rest' hm hN h hdl
    cases h with
    | defs1 => simp at hm
    | defsPlain => simp at hm
    | defs => simp at hm
  | succ m ih =>
    intro pre t rest' hm hN h hdl
    cases h with
    | @defs1 _ _ w ts t x b b' h =>
      refine ⟨_, rfl, fun hf => one [] x b b' w 0 false ts t rest' (by omega) ?_ h hdl hf⟩
      simp only [List.length_cons] at hN
      omega
    | @defsPlain _ _ w as l ts t x b b' b'' h hl h' =>
      simp only [List.length_append, List.length_cons] at hm hN
      obtain ⟨l', h1, h2⟩ := plain_reach (d := d) (rhs := rhs) (L := L) (rest := rest) m as _
        (⟨.sep .comma, b⟩ :: ⟨.ident x, b'⟩ :: ⟨.op .set, b''⟩ :: ts
        ++ rest') (by omega) h .comma
      obtain rfl := many_inj h1
      refine ⟨_, rfl, fun hf => ?_⟩
      rw [List.append_assoc]
      refine h2 fun f hlen => ?_
      rw [List.cons_append, List.cons_append, paramNext_comma]
      refine one l x b' b'' w _ _ ts t rest' hl (by omega) h' hdl hf f ?_
      simp only [List.length_append, List.length_cons] at hlen ⊢
      omega
    | @defs _ _ w as l ts t x b b' b'' h h' =>
      simp only [List.length_append, List.length_cons] at hm hN
      obtain ⟨l', h1, h2⟩ := ih as _ (⟨.sep .comma, b⟩ :: ⟨.ident x, b'⟩ :: ⟨.op .set, b''⟩ :: ts
        ++ rest') (by omega) (by omega) h .comma
      obtain rfl := many_inj h1
      refine ⟨_, rfl, fun hf => ?_⟩
      rw [List.append_assoc]
      refine h2 fun f nd hnd hlen => ?_
      rw [List.cons_append, List.cons_append, paramNext_comma]
      refine one l x b' b'' w _ _ ts t rest' hnd (by omega) h' hdl hf f ?_
      simp only [List.length_append, List.length_cons] at hlen ⊢
      omega

/-- Parameters without the closing parenthesis and without a rest parameter. -/
theorem listed_reach (hr : Complete c rhs n) {e : Env} (he : e.outer = false)
    {rest : Toks} {L : List Ast} {N : Nat} (hn : N < n) (hd : e.depth + N + 1 ≤ d)
    {cat : Cat} (hcat : cat = .plain ∨ cat = .defs) {pre : Toks} {t : Ast} {rest' : Toks}
    (hN : pre.length ≤ N) (h : G c.dial cat e.ctx false false pre t) (hdl : Delim rest') :
    ∃ l, t = many l ∧
      ((∀ f nd hd, rest'.length ≤ f →
        OkOr c d (paramNext c rhs e f nd hd l rest') (.params L) rest) →
      (∀ f, (pre ++ rest').length < f →
        OkOr c d (paramLoop c rhs e f 0 false [] (pre ++ rest')) (.params L) rest)) := by
  rcases hcat with rfl | rfl
  · obtain ⟨l, h1, h2⟩ := plain_reach (d := d) (rhs := rhs) (L := L) (rest := rest) _ _ _ _
      (Nat.le_refl _) h hdl
    exact ⟨l, h1, fun hf => h2 fun f => hf f _ _⟩
  · obtain ⟨l, h1, h2⟩ := defs_reach hr he (L := L) (rest := rest) hn hd _ _ _ _
      (Nat.le_refl _) hN h hdl
    exact ⟨l, h1, fun hf => h2 fun f nd _ => hf f _ _⟩

theorem params_reach (hr : Complete c rhs n) {e : Env} (he : e.outer = false)
    {pre rest : Toks} {l : List Ast} {b : Bool} (hn : pre.length < n)
    (hd : e.depth + pre.length + 1 ≤ d)
    (h : G c.dial .params e.ctx false false pre (many l)) :
    ∀ f, (pre ++ ⟨.sep .parenClose, b⟩ :: rest).length < f →
      OkOr c d (paramLoop c rhs e f 0 false [] (pre ++ ⟨.sep .parenClose, b⟩ :: rest)) (.params l)
        rest := by
  have hdel : Delim (⟨.sep .parenClose, b⟩ :: rest) := ⟨_, _, _, rfl, by simp⟩
  intro f hf
  generalize ht : many l = t at h
  cases h with
  | params0 =>
    obtain rfl := many_inj ht
    cases f with
    | zero => cases hf
    | succ f => exact .ok
  | params hcat h =>
    obtain ⟨l', h1, h2⟩ := listed_reach hr he (L := l) hn hd hcat (Nat.le_refl _) h hdel
    obtain rfl := many_inj (ht.trans h1)
    exact h2 (fun f nd hd _ => .ok) f hf
  | @paramsComma _ _ _ ts _ b' htr hcat h =>
    obtain ⟨l', h1, h2⟩ := listed_reach hr he (L := l) (rest := rest) hn hd hcat
      (rest' := ⟨.sep .comma, b'⟩ :: ⟨.sep .parenClose, b⟩ :: rest) (by simp) h .comma
    obtain rfl := many_inj (ht.trans h1)
    rw [List.append_assoc] at hf ⊢
    refine h2 (fun f nd hd hlen => ?_) f hf
    have htr : c.rules.trailingParam = true := htr
    have : paramNext c rhs e f nd hd l (⟨.sep .comma, b'⟩ :: ⟨.sep .parenClose, b⟩ :: rest) =
        paramLoop c rhs e f nd hd l (⟨.sep .parenClose, b⟩ :: rest) := by
      unfold paramNext
      rw [htr]
      simp [peek, Tok.isSep]
    rw [this]
    cases f with
    | zero => cases hlen
    | succ f => exact .ok
  | rest1 x b' b'' =>
    obtain rfl := many_inj ht
    cases f with
    | zero => cases hf
    | succ f => exact .ok
  | @rest _ _ _ ts l1 x b1 b2 b3 hcat h =>
    obtain rfl := many_inj ht
    obtain ⟨l', h1, h2⟩ := listed_reach hr he (L := l1 ++ [.mk .ellipsis none [.ident x]])
      (rest := rest) hn hd hcat
      (rest' := ⟨.sep .comma, b1⟩ :: ⟨.ident x, b2⟩ :: ⟨.op .more, b3⟩ ::
        ⟨.sep .parenClose, b⟩ :: rest) (by simp) h .comma
    obtain rfl := many_inj h1
    rw [List.append_assoc] at hf ⊢
    refine h2 (fun f nd hd hlen => ?_) f hf
    rw [paramNext_comma]
    cases f with
    | zero => cases hlen
    | succ f => exact .ok

end

end Verif.Expr
