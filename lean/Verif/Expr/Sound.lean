import Verif.Expr.Lemmas

/-!
# What the parser accepts is a phrase of the grammar
-/

namespace Verif.Expr

/-- The grammar which belongs to the rules of a parser. -/
def Cfg.dial (c : Cfg) : Dialect := ⟨c.rules, false, false⟩

def Env.ctx (e : Env) : Ctx := ⟨e.ctor, e.member⟩

/-- Part of the outermost expression. -/
def Env.outer (e : Env) : Bool := e.unary == 0

/-- The body of a function literal cannot be followed by an operator. -/
def Clean (c : Cfg) (ts : Toks) : Prop :=
  c.rules.bodyResume = false ∨ ∀ t ∈ ts, t.kind ≠ .op .lambda

theorem Clean.of_subset {c : Cfg} {ts ts' : Toks} (h : Clean c ts) (hs : ∀ t ∈ ts', t ∈ ts) :
    Clean c ts' :=
  h.imp id fun h t ht => h t (hs t ht)

theorem Clean.right {c : Cfg} {a b : Toks} (h : Clean c (a ++ b)) : Clean c b :=
  h.of_subset fun _ ht => List.mem_append_right _ ht

theorem Clean.tail {c : Cfg} {ts : Toks} (h : Clean c ts) : Clean c ts.tail :=
  h.of_subset fun _ ht => List.mem_of_mem_tail ht

def Shut (w : Bool) (r : Toks) : Prop := w = true → continues (peek r).kind = false

theorem Shut.ofFalse {r : Toks} : Shut false r := fun h => by cases h

theorem Shut.closed {w : Bool} {r : Toks} (h : Shut w r) {k : Kind} (hk : (peek r).kind = k)
    (hc : continues k = true) : w = false := by
  cases w with
  | false => rfl
  | true => rw [← hk, h rfl] at hc; cases hc

/-- A result is a phrase of category `cat` and what is left. -/
def Phrase (c : Cfg) (cat : Cat) (e : Env) (ts : Toks) (t : Ast) (r : Toks) : Prop :=
  ∃ pre w, ts = pre ++ r ∧ G c.dial cat e.ctx e.outer w pre t ∧ Shut w r

def Sound (c : Cfg) (cat : Cat) (p : P) : Prop :=
  ∀ e ts t r, Clean c ts → p e ts = .ok t r → Phrase c cat e ts t r

theorem andThen_ok {α β : Type} {x : Res α} {f : α → Toks → Res β} {b : β} {r : Toks}
    (h : x.andThen f = .ok b r) : ∃ a r', x = .ok a r' ∧ f a r' = .ok b r := by
  cases x with
  | ok a r' => exact ⟨a, r', rfl, h⟩
  | err e => cases h

theorem assume_ok {α : Type} {s : Sep} {ts : Toks} {k : Toks → Res α} {a : α} {r : Toks}
    (h : assume s ts k = .ok a r) : (peek ts).isSep s = true ∧ k ts.tail = .ok a r := by
  unfold assume at h
  split at h
  · next hs => exact ⟨hs, h⟩
  · cases h

theorem deeper_ok {α : Type} {c : Cfg} {e : Env} {k : Env → Res α} {a : α} {r : Toks}
    (h : deeper c e k = .ok a r) : k { e with depth := e.depth + 1 } = .ok a r := by
  unfold deeper at h
  split at h
  · cases h
  · exact h

theorem Env.inner_ctx (e : Env) : e.inner.ctx = e.ctx := rfl

theorem Env.inner_outer (e : Env) : e.inner.outer = false := by simp [Env.inner, Env.outer]

section
variable {c : Cfg} {rhs : P}

/-- An expression inside of brackets. -/
theorem Sound.inside (hr : Sound c .rhs rhs) {e : Env} (he : e.outer = false) {ts r : Toks}
    {t : Ast} (hc : Clean c ts) (h : rhs e ts = .ok t r) :
    ∃ pre w, ts = pre ++ r ∧ G c.dial .rhs e.ctx false w pre t := by
  obtain ⟨pre, w, h1, h2, -⟩ := hr e ts t r hc h
  exact ⟨pre, w, h1, he ▸ h2⟩

theorem expanded_sound {e : Env} {pre r : Toks} {w : Bool} {t : Ast}
    (h : G c.dial .rhs e.ctx false w pre t) :
    ∃ s, r = s ++ (expanded t r).2 ∧
      G c.dial .item e.ctx false false (pre ++ s) (expanded t r).1 := by
  unfold expanded
  split
  · next hm => exact ⟨[⟨.op .more, (peek r).eol⟩], isOp_cons hm, .expand _ h⟩
  · exact ⟨[], rfl, by simpa using G.item h⟩

/-- What was read of a list before the next element: nothing, or elements and a comma. -/
def Before (G1 : Toks → List Ast → Prop) (as : Toks) (acc : List Ast) : Prop :=
  (as = [] ∧ acc = []) ∨ ∃ as' b, as = as' ++ [⟨.sep .comma, b⟩] ∧ G1 as' acc

theorem Before.items {e : Env} {as ts : Toks} {acc : List Ast} {t : Ast}
    (h : Before (fun a l => G c.dial .items e.ctx false false a (many l)) as acc)
    (ht : G c.dial .item e.ctx false false ts t) :
    G c.dial .items e.ctx false false (as ++ ts) (many (acc ++ [t])) := by
  rcases h with ⟨rfl, rfl⟩ | ⟨as', b, rfl, h⟩
  · exact .items1 ht
  · have := G.items b h ht
    simpa using this

theorem arrayLoop_sound (hr : Sound c .rhs rhs) {e : Env} (he : e.outer = false) :
    ∀ (f : Nat) (as : Toks) (acc : List Ast) (ts : Toks) (t : Ast) (r : Toks), Clean c ts →
      Before (fun a l => G c.dial .items e.ctx false false a (many l)) as acc →
      arrayLoop rhs e f acc ts = .ok t r →
      ∃ pre b l, ts = pre ++ ⟨.sep .squareClose, b⟩ :: r ∧ t = .array l ∧
        G c.dial .elements e.ctx false false (as ++ pre) (many l) := by
  intro f
  induction f with
  | zero => intro as acc ts t r _ _ h; cases h
  | succ f ih =>
    intro as acc ts t r hc hb h
    unfold arrayLoop at h
    split at h
    · next hs =>
      cases h
      refine ⟨[], (peek ts).eol, acc, isSep_cons hs, rfl, ?_⟩
      rcases hb with ⟨rfl, rfl⟩ | ⟨as', b, rfl, hb⟩
      · exact .elements0
      · simpa using G.elementsComma b hb
    · obtain ⟨v, r1, h1, h2⟩ := andThen_ok h
      obtain ⟨p, w, rfl, hg⟩ := hr.inside he hc h1
      obtain ⟨s, hs, hi⟩ := expanded_sound (r := r1) hg
      have hit := hb.items hi
      generalize hx : expanded v r1 = x at *
      obtain ⟨v', r2⟩ := x
      dsimp only at hs hi hit h2
      subst hs
      split at h2
      · next hcm =>
        have hcm' := isSep_cons hcm
        obtain ⟨q, b, l, hq, ht, hg'⟩ := ih (as ++ (p ++ s) ++ [⟨.sep .comma, (peek r2).eol⟩]) _
          _ t r (hc.right.right.tail) (.inr ⟨_, _, rfl, hit⟩) h2
        refine ⟨p ++ s ++ ⟨.sep .comma, (peek r2).eol⟩ :: q, b, l, ?_, ht, ?_⟩
        · rw [hcm', hq]; simp [peek]
        · simpa using hg'
      · obtain ⟨h3, h4⟩ := assume_ok h2
        cases h4
        refine ⟨p ++ s, (peek r2).eol, _, ?_, rfl, .elements hit⟩
        rw [← List.append_assoc]
        exact congrArg _ (isSep_cons h3)

/-- What was read of the properties: nothing, or properties, and whether a comma came last. -/
def BeforeProps (G1 : Toks → List Ast → Prop) (comma : Bool) (as : Toks) (acc : List Ast) :
    Prop :=
  (comma = true ∧ as = [] ∧ acc = []) ∨ (comma = false ∧ G1 as acc) ∨
    ∃ as' b, comma = true ∧ as = as' ++ [⟨.sep .comma, b⟩] ∧ G1 as' acc

theorem objectLoop_sound (hr : Sound c .rhs rhs) {e : Env} (he : e.outer = false) :
    ∀ (f : Nat) (comma : Bool) (as : Toks) (acc : List Ast) (ts : Toks) (t : Ast) (r : Toks),
      Clean c ts →
      BeforeProps (fun a l => G c.dial .props e.ctx false false a (many l)) comma as acc →
      objectLoop rhs e f comma acc ts = .ok t r →
      ∃ pre b l, ts = pre ++ ⟨.sep .curlyClose, b⟩ :: r ∧ t = .object l ∧
        G c.dial .fields e.ctx false false (as ++ pre) (many l) := by
  intro f
  induction f with
  | zero => intro comma as acc ts t r _ _ h; cases h
  | succ f ih =>
    intro comma as acc ts t r hc hb h
    unfold objectLoop at h
    split at h
    · next hs =>
      split at h
      · cases h
      · next hcm =>
        have hg : G c.dial .props e.ctx false false as (many acc) := by
          rcases hb with ⟨h1, -⟩ | ⟨-, h1⟩ | ⟨_, _, h1, -⟩
          · exact absurd h1 hcm
          · exact h1
          · exact absurd h1 hcm
        obtain ⟨q, b, l, hq, ht, hg'⟩ := ih true (as ++ [⟨.sep .comma, (peek ts).eol⟩]) acc
          _ t r hc.tail (.inr (.inr ⟨_, _, rfl, rfl, hg⟩)) h
        refine ⟨⟨.sep .comma, (peek ts).eol⟩ :: q, b, l, ?_, ht, by simpa using hg'⟩
        rw [isSep_cons hs, hq]; simp [peek]
    · split at h
      · next hs =>
        cases h
        refine ⟨[], (peek ts).eol, acc, isSep_cons hs, rfl, ?_⟩
        rcases hb with ⟨-, rfl, rfl⟩ | ⟨-, h1⟩ | ⟨as', b, -, rfl, h1⟩
        · exact .fields0
        · simpa using G.fields h1
        · simpa using G.fieldsComma b h1
      · split at h
        · cases h
        · next hcm =>
          have hcm : comma = true := by simpa using hcm
          split at h
          · next hn =>
            obtain ⟨h1, h2⟩ := assume_ok h
            obtain ⟨v, r1, h3, h4⟩ := andThen_ok h2
            obtain ⟨p, w, hp, hg⟩ := hr.inside he hc.tail.tail h3
            have hn' := (isName_iff _).1 hn
            have hts := peek_kind' (ts := ts) rfl hn'.ne_eof
            have hts' := isSep_cons h1
            have hprops : G c.dial .props e.ctx false false
                (as ++ (⟨(peek ts).kind, (peek ts).eol⟩ ::
                  ⟨.sep .colon, (peek ts.tail).eol⟩ :: p))
                (many (acc ++ [.prop (peek ts).kind v])) := by
              rcases hb with ⟨-, rfl, rfl⟩ | ⟨h5, -⟩ | ⟨as', b, -, rfl, h5⟩
              · exact .props1 _ _ hn' hg
              · rw [h5] at hcm; cases hcm
              · simpa using G.props b _ _ h5 hn' hg
            obtain ⟨q, b, l, hq, ht, hg'⟩ := ih false _ _ r1 t r
              (Clean.right (a := p) (by rw [← hp]; exact hc.tail.tail)) (.inr (.inl ⟨rfl, hprops⟩)) h4
            refine ⟨⟨(peek ts).kind, (peek ts).eol⟩ ::
                  ⟨.sep .colon, (peek ts.tail).eol⟩ :: p ++ q, b, l, ?_, ht, ?_⟩
            · rw [hts, hts', hp, hq]; simp [peek]
            · simpa using hg'
          · cases h

theorem isSep_ex {ts : Toks} {s : Sep} (h : (peek ts).isSep s = true) :
    ∃ b r, ts = ⟨.sep s, b⟩ :: r := ⟨_, _, isSep_cons h⟩

theorem isOp_ex {ts : Toks} {o : Op} (h : (peek ts).isOp o = true) :
    ∃ b r, ts = ⟨.op o, b⟩ :: r := ⟨_, _, isOp_cons h⟩

theorem isKw_ex {ts : Toks} {k : Kw} (h : (peek ts).isKw k = true) :
    ∃ b r, ts = ⟨.kw k, b⟩ :: r := ⟨_, _, isKw_cons h⟩

theorem kind_ex {ts : Toks} {k : Kind} (h : (peek ts).kind = k) (hk : k ≠ .eof) :
    ∃ b r, ts = ⟨k, b⟩ :: r := ⟨_, _, peek_kind' h hk⟩

theorem argLoop_sound (hr : Sound c .rhs rhs) {e : Env} (he : e.outer = false) (g : Ast) :
    ∀ (f : Nat) (as : Toks) (acc : List Ast) (ts : Toks) (t : Ast) (r : Toks), Clean c ts →
      Before (fun a l => G c.dial .items e.ctx false false a (many l)) as acc →
      argLoop rhs e g f acc ts = .ok t r →
      ∃ pre b l, ts = pre ++ ⟨.sep .parenClose, b⟩ :: r ∧ t = .call g l ∧
        G c.dial .items e.ctx false false (as ++ pre) (many l) := by
  intro f
  induction f with
  | zero => intro as acc ts t r _ _ h; cases h
  | succ f ih =>
    intro as acc ts t r hc hb h
    unfold argLoop at h
    obtain ⟨v, r1, h1, h2⟩ := andThen_ok h
    obtain ⟨p, w, rfl, hg⟩ := hr.inside he hc h1
    obtain ⟨s, hs, hi⟩ := expanded_sound (r := r1) hg
    have hit := hb.items hi
    generalize hx : expanded v r1 = x at *
    obtain ⟨v', r2⟩ := x
    dsimp only at hs hi hit h2
    subst hs
    split at h2
    · next hcm =>
      cases h2
      obtain ⟨b, r3, rfl⟩ := isSep_ex hcm
      exact ⟨p ++ s, b, _, by simp, rfl, hit⟩
    · obtain ⟨h3, h4⟩ := assume_ok h2
      obtain ⟨b, r3, rfl⟩ := isSep_ex h3
      obtain ⟨q, b', l, hq, ht, hg'⟩ := ih (as ++ (p ++ s) ++ [⟨.sep .comma, b⟩]) _
        _ t r (hc.right.right.tail) (.inr ⟨_, _, rfl, hit⟩) h4
      refine ⟨p ++ s ++ ⟨.sep .comma, b⟩ :: q, b', l, ?_, ht, ?_⟩
      · simp only [List.tail_cons] at hq
        rw [hq]; simp
      · simpa using hg'

theorem namedLoop_sound (hr : Sound c .rhs rhs) {e : Env} (he : e.outer = false) (g : Ast) :
    ∀ (f : Nat) (as : Toks) (acc : List Ast) (ts : Toks) (t : Ast) (r : Toks), Clean c ts →
      Before (fun a l => G c.dial .named e.ctx false false a (many l)) as acc →
      namedLoop rhs e g f acc ts = .ok t r →
      ∃ pre b l, ts = pre ++ ⟨.sep .parenClose, b⟩ :: r ∧ t = .call g [.named l] ∧
        G c.dial .named e.ctx false false (as ++ pre) (many l) := by
  intro f
  induction f with
  | zero => intro as acc ts t r _ _ h; cases h
  | succ f ih =>
    intro as acc ts t r hc hb h
    unfold namedLoop at h
    split at h
    · next x hx =>
      obtain ⟨b, ts, rfl⟩ := kind_ex hx (by simp)
      split at h
      · next hs =>
        obtain ⟨b', ts', rfl⟩ := isOp_ex hs
        obtain ⟨v, r1, h1, h2⟩ := andThen_ok h
        obtain ⟨p, w, hp, hg⟩ := hr.inside he (hc.of_subset (by simp; grind)) h1
        simp only [List.tail_cons] at hp
        subst hp
        have hit : G c.dial .named e.ctx false false
            (as ++ ⟨.ident x, b⟩ :: ⟨.op .set, b'⟩ :: p) (many (acc ++ [.prop (.ident x) v])) := by
          rcases hb with ⟨rfl, rfl⟩ | ⟨as', b, rfl, hb⟩
          · exact .named1 x _ _ hg
          · simpa using G.named x b _ _ hb hg
        split at h2
        · next hcm =>
          cases h2
          obtain ⟨b'', r3, rfl⟩ := isSep_ex hcm
          exact ⟨_ :: _ :: p, b'', _, by simp, rfl, hit⟩
        · obtain ⟨h3, h4⟩ := assume_ok h2
          obtain ⟨b'', r3, rfl⟩ := isSep_ex h3
          obtain ⟨q, b3, l, hq, ht, hg'⟩ := ih _ _
            _ t r (hc.of_subset (by simp; grind)) (.inr ⟨_, b'', rfl, hit⟩) h4
          simp only [List.tail_cons] at hq
          subst hq
          refine ⟨⟨.ident x, b⟩ :: ⟨.op .set, b'⟩ :: p ++ ⟨.sep .comma, b''⟩ :: q, b3, l, ?_, ht, ?_⟩
          · simp
          · simpa using hg'
      · cases h
    · cases h

/-- What was read of the parameters, and whether one of them has a default value. -/
inductive BeforeParams (c : Cfg) (e : Env) : Nat → Bool → Toks → List Ast → Prop where
  | nil : BeforeParams c e 0 false [] []
  | plain {as l} (b : Bool) : G c.dial .plain e.ctx false false as (many l) →
      BeforeParams c e l.length false (as ++ [⟨.sep .comma, b⟩]) l
  | defs {as l nd} (b : Bool) : nd ≤ 255 → G c.dial .defs e.ctx false false as (many l) →
      BeforeParams c e nd true (as ++ [⟨.sep .comma, b⟩]) l

theorem closeParams_ok {acc : List Ast} {ts : Toks} {t : Ast} {r : Toks}
    (h : closeParams acc ts = .ok t r) :
    ∃ b, ts = ⟨.sep .parenClose, b⟩ :: r ∧ t = .params acc := by
  obtain ⟨h1, h2⟩ := assume_ok h
  obtain ⟨b, r', rfl⟩ := isSep_ex h1
  cases h2
  exact ⟨b, rfl, rfl⟩

theorem paramLoop_sound (hr : Sound c .rhs rhs) {e : Env} (he : e.outer = false) :
    ∀ (f nd : Nat) (hd : Bool) (as : Toks) (acc : List Ast) (ts : Toks) (t : Ast) (r : Toks),
      Clean c ts → BeforeParams c e nd hd as acc →
      ((peek ts).isSep .parenClose = true → as = [] ∨ c.rules.trailingParam = true) →
      paramLoop c rhs e f nd hd acc ts = .ok t r →
      ∃ pre b l, ts = pre ++ ⟨.sep .parenClose, b⟩ :: r ∧ t = .params l ∧
        G c.dial .params e.ctx false false (as ++ pre) (many l) := by
  intro f
  induction f with
  | zero => intro nd hd as acc ts t r _ _ _ h; cases h
  | succ f ih =>
    intro nd hd as acc ts t r hc hb htr h
    unfold paramLoop at h
    have next : ∀ (nd : Nat) (hd : Bool) (cat : Cat) (as' : Toks) (acc : List Ast) (r1 : Toks),
        Clean c r1 →
        cat = .plain ∨ cat = .defs → G c.dial cat e.ctx false false as' (many acc) →
        (∀ b, BeforeParams c e nd hd (as' ++ [⟨.sep .comma, b⟩]) acc) →
        (if (peek r1).isSep .comma then
          if (peek r1.tail).isSep .parenClose && !c.rules.trailingParam then .err .syntax
          else paramLoop c rhs e f nd hd acc r1.tail
        else closeParams acc r1) = .ok t r →
        ∃ pre b l, r1 = pre ++ ⟨.sep .parenClose, b⟩ :: r ∧ t = .params l ∧
          G c.dial .params e.ctx false false (as' ++ pre) (many l) := by
      intro nd hd cat as' acc r1 hc hcat hg hb h
      split at h
      · next hcm =>
        obtain ⟨b, r2, rfl⟩ := isSep_ex hcm
        split at h
        · cases h
        · next htc =>
          obtain ⟨q, b', l, hq, ht, hg'⟩ := ih nd hd _ acc r2 t r hc.tail (hb b)
            (by intro hp; right; simp at htc; exact htc hp) h
          subst hq
          exact ⟨_ :: q, b', l, rfl, ht, by simpa using hg'⟩
      · obtain ⟨b, rfl, rfl⟩ := closeParams_ok h
        exact ⟨[], b, acc, by simp, rfl, by simpa using G.params hcat hg⟩
    dsimp only at h
    split at h
    · next x hx =>
      by_cases hs : (peek ts.tail).op = 0x10
      · rw [if_pos hs] at h
        obtain ⟨b, ts, rfl⟩ := kind_ex hx (by simp)
        obtain ⟨b', ts', rfl⟩ := kind_ex ((code_set _).1 hs) (by simp)
        by_cases hnd : nd > 255
        · rw [if_pos hnd] at h; cases h
        · rw [if_neg hnd] at h
          obtain ⟨v, r1, h1, h2⟩ := andThen_ok h
          obtain ⟨p, w, hp, hg⟩ := hr.inside he (hc.of_subset (by simp; grind)) h1
          simp only [List.tail_cons] at hp
          subst hp
          have hnd : nd ≤ 255 := by omega
          have hit : G c.dial .defs e.ctx false false
              (as ++ ⟨.ident x, b⟩ :: ⟨.op .set, b'⟩ :: p)
              (many (acc ++ [.mk .assignment none [.ident x, v]])) := by
            cases hb with
            | nil => exact .defs1 x _ _ hg
            | plain b hb => simpa using G.defsPlain x b _ _ hb hnd hg
            | defs b _ hb => simpa using G.defs x b _ _ hb hg
          obtain ⟨q, b'', l, rfl, ht, hg'⟩ := next nd true .defs _ _ r1
            (hc.of_subset (by simp; grind)) (.inr rfl) hit (fun b => .defs b hnd hit) h2
          exact ⟨⟨.ident x, b⟩ :: ⟨.op .set, b'⟩ :: p ++ q, b'', l, by simp, ht, by simpa using hg'⟩
      · rw [if_neg hs] at h
        clear hs
        by_cases hs : (peek ts.tail).isOp .more = true
        · rw [if_pos hs] at h
          obtain ⟨b, ts, rfl⟩ := kind_ex hx (by simp)
          obtain ⟨b', ts', rfl⟩ := isOp_ex hs
          obtain ⟨b'', hq, rfl⟩ := closeParams_ok h
          simp only [List.tail_cons] at hq
          subst hq
          refine ⟨[_, _], b'', _, rfl, rfl, ?_⟩
          cases hb with
          | nil => exact .rest1 x _ _
          | plain b hb => simpa using G.rest x b _ _ (.inl rfl) hb
          | defs b _ hb => simpa using G.rest x b _ _ (.inr rfl) hb
        · rw [if_neg hs] at h
          by_cases hhd : hd = true
          · rw [if_pos hhd] at h; cases h
          · rw [if_neg hhd] at h
            obtain ⟨b, ts, rfl⟩ := kind_ex hx (by simp)
            have hit : G c.dial .plain e.ctx false false (as ++ [⟨.ident x, b⟩])
                (many (acc ++ [.ident x])) ∧ nd = acc.length := by
              cases hb with
              | nil => exact ⟨.plain1 x _, rfl⟩
              | plain b hb => exact ⟨by simpa using G.plain x b _ hb, rfl⟩
              | defs b _ hb => exact absurd rfl hhd
            obtain ⟨q, b'', l, rfl, ht, hg'⟩ := next (nd + 1) hd .plain _ _ ts
              (hc.of_subset (by simp; grind)) (.inl rfl) hit.1
              (fun b => by
                have := BeforeParams.plain (c := c) (e := e) b hit.1
                rw [hit.2, Bool.eq_false_iff.2 hhd]
                simpa using this) h
            exact ⟨_ :: q, b'', l, rfl, ht, by simpa using hg'⟩
    · obtain ⟨b, rfl, rfl⟩ := closeParams_ok h
      refine ⟨[], b, acc, rfl, rfl, ?_⟩
      have htr := htr rfl
      cases hb with
      | nil => exact .params0
      | plain b hb => simpa using G.paramsComma b (htr.resolve_left (by simp)) (.inl rfl) hb
      | defs b _ hb => simpa using G.paramsComma b (htr.resolve_left (by simp)) (.inr rfl) hb

/-- Operators cannot follow the body of a function literal. -/
theorem Clean.shut {ts r : Toks} {b : Bool} {pre : Toks}
    (hc : Clean c (pre ++ ⟨.op .lambda, b⟩ :: ts))
    (h : ¬(!c.rules.bodyResume && continues (peek r).kind) = true) : Shut true r := by
  intro _
  rcases hc with hc | hc
  · simpa [hc] using h
  · exact absurd rfl (hc ⟨.op .lambda, b⟩ (by simp))

theorem lambdaBody_sound (hr : Sound c .rhs rhs) {e : Env} {ps t : Ast} {ts r pre : Toks}
    {b : Bool} (hc : Clean c (pre ++ ⟨.op .lambda, b⟩ :: ts))
    (h : lambdaBody c rhs e ps ts = .ok t r) :
    ∃ p w y, ts = p ++ r ∧ G c.dial .rhs ⟨false, false⟩ false w p y ∧ t = .lambda ps y ∧
      Shut true r := by
  obtain ⟨y, r1, h1, h2⟩ := andThen_ok h
  obtain ⟨p, w, rfl, hg⟩ := hr.inside rfl (hc.of_subset (by simp; grind)) h1
  split at h2
  · cases h2
  · next hn =>
    cases h2
    exact ⟨p, w, y, rfl, hg, rfl, hc.shut hn⟩

theorem primary_sound (hr : Sound c .rhs rhs) : Sound c .primary (primary c rhs) := by
  intro e ts t r hc h
  have hi := e.inner_outer
  have atom : ∀ {k t'}, (peek ts).kind = k → k ≠ .eof → Atom e.ctx k t' →
      Res.ok t' ts.tail = .ok t r → Phrase c .primary e ts t r := by
    intro k t' hk hne ha h
    obtain ⟨b, ts, rfl⟩ := kind_ex hk hne
    cases h
    exact ⟨[⟨k, b⟩], false, rfl, .atom b ha, .ofFalse⟩
  unfold primary at h
  split at h
  · next v hk => exact atom hk (by simp) (.num v) h
  · next v hk => exact atom hk (by simp) (.str v) h
  · next x hk =>
    split at h
    · next hl =>
      obtain ⟨b, ts, rfl⟩ := kind_ex hk (by simp)
      obtain ⟨b', ts', rfl⟩ := isOp_ex hl
      obtain ⟨p, w, y, hp, hg, rfl, hs⟩ := lambdaBody_sound hr (pre := [⟨.ident x, b⟩]) hc h
      subst hp
      exact ⟨_ :: _ :: p, true, rfl, .lambda1 x b b' hg, hs⟩
    · exact atom hk (by simp) (.ident x) h
  · next hk => exact atom hk (by simp) .this h
  · next hk =>
    split at h
    · next hm => exact atom hk (by simp) (.super hm) h
    · cases h
  · next hk => exact atom hk (by simp) .line h
  · next hk => exact atom hk (by simp) .true h
  · next hk => exact atom hk (by simp) .false h
  · next hk => exact atom hk (by simp) .void h
  · next hk => exact atom hk (by simp) .placeholder h
  · next hk =>
    obtain ⟨b, ts, rfl⟩ := kind_ex hk (by simp)
    obtain ⟨p, b', l, hp, rfl, hg⟩ := arrayLoop_sound hr hi _ [] [] _ t r hc.tail
      (.inl ⟨rfl, rfl⟩) h
    simp only [List.tail_cons] at hp
    subst hp
    exact ⟨⟨.sep .squareOpen, b⟩ :: p ++ [⟨.sep .squareClose, b'⟩], false, by simp,
      .array b b' (c := e.ctx) hg, .ofFalse⟩
  · next hk =>
    obtain ⟨b, ts, rfl⟩ := kind_ex hk (by simp)
    obtain ⟨p, b', l, hp, rfl, hg⟩ := objectLoop_sound hr hi _ true [] [] _ t r hc.tail
      (.inl ⟨rfl, rfl, rfl⟩) h
    simp only [List.tail_cons] at hp
    subst hp
    exact ⟨⟨.sep .curlyOpen, b⟩ :: p ++ [⟨.sep .curlyClose, b'⟩], false, by simp,
      .object b b' (c := e.ctx) hg, .ofFalse⟩
  · next hk =>
    split at h
    · next hl =>
      obtain ⟨b, ts, rfl⟩ := kind_ex hk (by simp)
      obtain ⟨ps, r1, h1, h2⟩ := andThen_ok h
      obtain ⟨p, b', l, hp, rfl, hg⟩ := paramLoop_sound hr hi _ 0 false [] [] _ ps r1 hc.tail
        .nil (fun _ => .inl rfl) h1
      simp only [List.tail_cons] at hp
      subst hp
      split at h2
      · next ho =>
        obtain ⟨b'', r2, rfl⟩ := isOp_ex ho
        obtain ⟨q, w, y, hq, hg', rfl, hs⟩ := lambdaBody_sound hr (b := b'')
          (pre := ⟨.sep .parenOpen, b⟩ :: p ++ [⟨.sep .parenClose, b'⟩]) (by simpa using hc) h2
        simp only [List.tail_cons] at hq
        subst hq
        exact ⟨⟨.sep .parenOpen, b⟩ :: p ++ ⟨.sep .parenClose, b'⟩ :: ⟨.op .lambda, b''⟩ :: q,
          true, by simp, .lambda b b' b'' (c := e.ctx) hg hg', hs⟩
      · cases h2
    · obtain ⟨b, ts, rfl⟩ := kind_ex hk (by simp)
      obtain ⟨v, r1, h1, h2⟩ := andThen_ok h
      obtain ⟨p, w, hp, hg⟩ := hr.inside hi hc.tail h1
      simp only [List.tail_cons] at hp
      subst hp
      obtain ⟨h3, h4⟩ := assume_ok h2
      obtain ⟨b', r2, rfl⟩ := isSep_ex h3
      cases h4
      exact ⟨⟨.sep .parenOpen, b⟩ :: p ++ [⟨.sep .parenClose, b'⟩], false, by simp,
        .paren b b' (c := e.ctx) hg, .ofFalse⟩
  · cases h

/-- One more step behind a member expression. -/
def Step (c : Cfg) (e : Env) (ts : Toks) (t t' : Ast) (r : Toks) : Prop :=
  ∃ s, ts = s ++ r ∧ ∀ pre o, o = (e.unary == 1) → G c.dial .member e.ctx o false pre t →
    G c.dial .member e.ctx o false (pre ++ s) t'

theorem refIdent_sound {e : Env} {b : Bool} {ts r : Toks} {t t' : Ast}
    (h : refIdent t ts = .ok t' r) : Step c e (⟨.op .dot, b⟩ :: ts) t t' r := by
  unfold refIdent at h
  dsimp only at h
  cases ho : (peek ts).isOp .tri with
  | true =>
    rw [ho] at h
    obtain ⟨b', ts, rfl⟩ := isOp_ex ho
    simp only [if_true] at h
    split at h
    · next hn =>
      cases h
      have hn' := (isName_iff _).1 hn
      generalize hk : (peek _).kind = k at hn'
      obtain ⟨b'', ts, hts⟩ := kind_ex hk hn'.ne_eof
      simp only [List.tail_cons] at hts
      subst hts
      exact ⟨[_, _, _], rfl, fun pre o _ hg => .optDot b b' b'' hg hn'⟩
    · cases h
  | false =>
    rw [ho] at h
    simp only [Bool.false_eq_true, if_false] at h
    split at h
    · next hn =>
      cases h
      have hn' := (isName_iff _).1 hn
      generalize hk : (peek _).kind = k at hn'
      obtain ⟨b'', ts, rfl⟩ := kind_ex hk hn'.ne_eof
      exact ⟨[_, _], rfl, fun pre o _ hg => .dot b b'' hg hn'⟩
    · cases h

theorem sliceEnd_sound (hr : Sound c .rhs rhs) {e : Env} (he : e.outer = false) {t a t' : Ast}
    {ts r : Toks} (hc : Clean c ts) (h : sliceEnd rhs e t a ts = .ok t' r) :
    ∃ p b y, ts = p ++ ⟨.sep .squareClose, b⟩ :: r ∧ t' = .slice t a y ∧
      G c.dial .bound e.ctx false false p y := by
  unfold sliceEnd at h
  split at h
  · next hs =>
    obtain ⟨b, ts, rfl⟩ := isSep_ex hs
    cases h
    exact ⟨[], b, _, rfl, rfl, .bound0⟩
  · obtain ⟨v, r1, h1, h2⟩ := andThen_ok h
    obtain ⟨p, w, rfl, hg⟩ := hr.inside he hc h1
    obtain ⟨h3, h4⟩ := assume_ok h2
    obtain ⟨b', r2, rfl⟩ := isSep_ex h3
    cases h4
    exact ⟨p, b', v, rfl, rfl, .bound hg⟩

theorem fits_of {e : Env} {o : Bool} {t : Tok} (ho : o = (e.unary == 1))
    (h : ¬(t.eol && e.unary == 1) = true) : Fits o t := by
  rintro ⟨h1, h2⟩
  rw [h2, ← ho, h1] at h
  exact h rfl

theorem refExpr_sound (hr : Sound c .rhs rhs) {e : Env} (he : e.outer = false) {t t' : Ast}
    {ts r : Toks} {b : Bool} (hc : Clean c ts) (hf : ¬(b && e.unary == 1) = true)
    (h : refExpr c rhs e t ts = .ok t' r) : Step c e (⟨.sep .squareOpen, b⟩ :: ts) t t' r := by
  unfold refExpr at h
  dsimp only at h
  cases ho : (peek ts).isOp .tri with
  | true =>
    rw [ho] at h
    obtain ⟨b3, ts, rfl⟩ := isOp_ex ho
    simp only [if_true, Bool.not_true, Bool.false_or, List.tail_cons] at h
    split at h
    · cases h
    · split at h
      · next hcl =>
        split at h
        · next hos =>
          obtain ⟨b', ts, rfl⟩ := isSep_ex hcl
          obtain ⟨p, b'', y, hp, rfl, hg⟩ := sliceEnd_sound hr he
            (hc.of_subset (by simp; grind)) h
          simp only [List.tail_cons] at hp
          subst hp
          refine ⟨⟨.sep .squareOpen, b⟩ :: ⟨.op .tri, b3⟩ :: ⟨.sep .colon, b'⟩ :: p ++
            [⟨.sep .squareClose, b''⟩], by simp, fun pre o h1 h2 => ?_⟩
          have := G.optSlice (as := []) b b' b'' b3 hos h2 (fits_of h1 hf) .bound0 hg
          simpa using this
        · cases h
      · obtain ⟨v, r1, h1, h2⟩ := andThen_ok h
        obtain ⟨p, w, rfl, hg⟩ := hr.inside he (hc.of_subset (by simp; grind)) h1
        split at h2
        · next hcl =>
          split at h2
          · next hos =>
            obtain ⟨b', r2, rfl⟩ := isSep_ex hcl
            obtain ⟨q, b'', y, hq, rfl, hg'⟩ := sliceEnd_sound hr he
              (hc.of_subset (by simp; grind)) h2
            simp only [List.tail_cons] at hq
            subst hq
            refine ⟨⟨.sep .squareOpen, b⟩ :: ⟨.op .tri, b3⟩ :: p ++ ⟨.sep .colon, b'⟩ :: q ++
              [⟨.sep .squareClose, b''⟩], by simp, fun pre o h1 h2 => ?_⟩
            have := G.optSlice b b' b'' b3 hos h2 (fits_of h1 hf) (.bound hg) hg'
            simpa using this
          · cases h2
        · obtain ⟨h3, h4⟩ := assume_ok h2
          obtain ⟨b', r2, rfl⟩ := isSep_ex h3
          cases h4
          refine ⟨⟨.sep .squareOpen, b⟩ :: ⟨.op .tri, b3⟩ :: p ++ [⟨.sep .squareClose, b'⟩],
            by simp, fun pre o h1 h2 => ?_⟩
          have := G.optIndex b b3 b' h2 (fits_of h1 hf) hg
          simpa using this
  | false =>
    rw [ho] at h
    simp only [Bool.not_false, Bool.true_or, Bool.false_eq_true, if_false, if_true] at h
    split at h
    · cases h
    · split at h
      · next hcl =>
        obtain ⟨b', ts, rfl⟩ := isSep_ex hcl
        obtain ⟨p, b'', y, hp, rfl, hg⟩ := sliceEnd_sound hr he
          (hc.of_subset (by simp; grind)) h
        simp only [List.tail_cons] at hp
        subst hp
        refine ⟨⟨.sep .squareOpen, b⟩ :: ⟨.sep .colon, b'⟩ :: p ++
          [⟨.sep .squareClose, b''⟩], by simp, fun pre o h1 h2 => ?_⟩
        have := G.slice (as := []) b b' b'' h2 (fits_of h1 hf) .bound0 hg
        simpa using this
      · obtain ⟨v, r1, h1, h2⟩ := andThen_ok h
        obtain ⟨p, w, rfl, hg⟩ := hr.inside he (hc.of_subset (by simp)) h1
        split at h2
        · next hcl =>
          obtain ⟨b', r2, rfl⟩ := isSep_ex hcl
          obtain ⟨q, b'', y, hq, rfl, hg'⟩ := sliceEnd_sound hr he
            (hc.of_subset (by simp; grind)) h2
          simp only [List.tail_cons] at hq
          subst hq
          refine ⟨⟨.sep .squareOpen, b⟩ :: p ++ ⟨.sep .colon, b'⟩ :: q ++
            [⟨.sep .squareClose, b''⟩], by simp, fun pre o h1 h2 => ?_⟩
          have := G.slice b b' b'' h2 (fits_of h1 hf) (.bound hg) hg'
          simpa using this
        · obtain ⟨h3, h4⟩ := assume_ok h2
          obtain ⟨b', r2, rfl⟩ := isSep_ex h3
          cases h4
          refine ⟨⟨.sep .squareOpen, b⟩ :: p ++ [⟨.sep .squareClose, b'⟩],
            by simp, fun pre o h1 h2 => ?_⟩
          have := G.index b b' h2 (fits_of h1 hf) hg
          simpa using this

theorem callee_iff {e : Env} {f g : Ast} : callee e f = some g ↔ Called e.ctx f g := by
  unfold callee
  constructor
  · intro h
    split at h
    · next h1 =>
      split at h
      · next h2 => cases h; exact .super f h1 h2
      · cases h
    · next h1 => cases h; exact .fn f h1
  · intro h
    cases h with
    | fn h => rw [if_neg h]
    | super h1 h2 => rw [if_pos h1]; exact if_pos h2

theorem invocation_sound (hr : Sound c .rhs rhs) {e : Env} (he : e.outer = false) {t t' : Ast}
    {ts r : Toks} {b : Bool} (hc : Clean c ts) (hf : ¬(b && e.unary == 1) = true)
    (h : invocation rhs e t ts = .ok t' r) : Step c e (⟨.sep .parenOpen, b⟩ :: ts) t t' r := by
  unfold invocation at h
  split at h
  · cases h
  · next g hg =>
    have hg := callee_iff.1 hg
    have fin : ∀ {l p b'}, ts = p ++ ⟨.sep .parenClose, b'⟩ :: r → t' = .call g l →
        G c.dial .args e.ctx false false p (many l) →
        Step c e (⟨.sep .parenOpen, b⟩ :: ts) t t' r := by
      rintro l p b' rfl rfl ha
      refine ⟨⟨.sep .parenOpen, b⟩ :: p ++ [⟨.sep .parenClose, b'⟩], by simp,
        fun pre o h1 h2 => ?_⟩
      have := G.call b b' h2 hg (fits_of h1 hf) ha
      simpa using this
    split at h
    · next hs =>
      obtain ⟨b', ts, rfl⟩ := isSep_ex hs
      cases h
      exact fin (p := []) rfl rfl .args0
    · split at h
      · obtain ⟨p, b', l, h1, h2, h3⟩ := namedLoop_sound hr he g _ [] [] _ t' r hc
          (.inl ⟨rfl, rfl⟩) h
        exact fin h1 h2 (.argsNamed h3)
      · obtain ⟨p, b', l, h1, h2, h3⟩ := argLoop_sound hr he g _ [] [] _ t' r hc
          (.inl ⟨rfl, rfl⟩) h
        exact fin h1 h2 (.args h3)

theorem memberLoop_sound (hr : Sound c .rhs rhs) {e : Env} (he : e.outer = false) :
    ∀ (f : Nat) (pre : Toks) (w : Bool) (t : Ast) (ts : Toks) (t' : Ast) (r : Toks),
      Clean c ts → G c.dial .member e.ctx (e.unary == 1) w pre t → Shut w ts →
      memberLoop c rhs e f t ts = .ok t' r →
      ∃ s w', ts = s ++ r ∧ G c.dial .member e.ctx (e.unary == 1) w' (pre ++ s) t' ∧
        Shut w' r := by
  intro f
  induction f with
  | zero => intro pre w t ts t' r _ _ _ h; cases h
  | succ f ih =>
    intro pre w t ts t' r hc hg hs h
    have step : ∀ {t1 r1}, w = false → Step c e ts t t1 r1 →
        memberLoop c rhs e f t1 r1 = .ok t' r →
        ∃ s w', ts = s ++ r ∧ G c.dial .member e.ctx (e.unary == 1) w' (pre ++ s) t' ∧
          Shut w' r := by
      rintro t1 r1 rfl ⟨s, rfl, hst⟩ h
      obtain ⟨q, w', rfl, h1, h2⟩ := ih (pre ++ s) false t1 r1 t' r hc.right
        (hst _ _ rfl hg) .ofFalse h
      exact ⟨s ++ q, w', by simp, by simpa using h1, h2⟩
    unfold memberLoop at h
    split at h
    · next hd =>
      obtain ⟨b, ts, rfl⟩ := isOp_ex hd
      obtain ⟨t1, r1, h1, h2⟩ := andThen_ok h
      exact step (hs.closed rfl rfl) (refIdent_sound h1) h2
    · split at h
      · next hd =>
        split at h
        · cases h
        · next hf =>
          obtain ⟨b, ts, rfl⟩ := isSep_ex hd
          obtain ⟨t1, r1, h1, h2⟩ := andThen_ok h
          exact step (hs.closed rfl rfl) (refExpr_sound hr he hc.tail hf h1) h2
      · split at h
        · next hd =>
          split at h
          · cases h
          · next hf =>
            obtain ⟨b, ts, rfl⟩ := isSep_ex hd
            obtain ⟨t1, r1, h1, h2⟩ := andThen_ok h
            exact step (hs.closed rfl rfl) (invocation_sound hr he hc.tail hf h1) h2
        · cases h
          exact ⟨[], w, rfl, by simpa using hg, hs⟩

theorem member_sound (hr : Sound c .rhs rhs) : Sound c .member (member c rhs) := by
  intro e ts t r hc h
  obtain ⟨x, r1, h1, h2⟩ := andThen_ok h
  obtain ⟨p, w, rfl, hg, hs⟩ := primary_sound hr e ts x r1 hc h1
  have ho : (e.inner.unary == 1) = e.outer := by simp [Env.inner, Env.outer]
  obtain ⟨s, w', rfl, h3, h4⟩ := memberLoop_sound hr e.inner_outer _ p w x r1 t r hc.right
    (by rw [ho]; exact .member hg) hs h2
  rw [ho] at h3
  exact ⟨p ++ s, w', by simp, h3, h4⟩

theorem unary_sound (hr : Sound c .rhs rhs) : ∀ f, Sound c .unary (unary c rhs f) := by
  intro f
  induction f with
  | zero => intro e ts t r _ h; cases h
  | succ f ih =>
    intro e ts t r hc h
    unfold unary at h
    split at h
    · next hu0 =>
      have hu := (isUnary_iff _).1 hu0
      generalize hk : (peek ts).kind = k at hu h
      obtain ⟨b, ts, rfl⟩ := kind_ex hk (mem_ne_eof hu (by decide))
      obtain ⟨x, r1, h1, h2⟩ := andThen_ok (deeper_ok h)
      cases h2
      obtain ⟨p, w, hp, hg, hs⟩ := ih _ _ x r hc.tail h1
      simp only [List.tail_cons] at hp
      subst hp
      refine ⟨_ :: p, w, rfl, .unary b hu ?_, hs⟩
      cases hx : c.rules.unaryEol with
      | true =>
        rw [hx] at hg
        simpa [Cfg.dial, hx, Env.inner, Env.outer, Env.ctx] using hg
      | false =>
        rw [hx] at hg
        simpa [Cfg.dial, hx, Env.inner, Env.outer, Env.ctx] using hg
    · obtain ⟨p, w, hp, hg, hs⟩ := member_sound hr e ts t r hc h
      exact ⟨p, w, hp, .unary0 hg, hs⟩

variable {un : P}

/-- Two operands and the operator between them. -/
def Ar.tree (a : Ar) : Ast := .oper a.op [a.left, a.node]

/-- What the state of the loop over arithmetic operators means. -/
inductive ArInv (c : Cfg) (x : Ctx) (o : Bool) : Bool → Toks → Ar → Prop where
  | mul {w as a} : a.last &&& 0xF8 = 0x88 →
      G c.dial .mul x o w as a.tree → ArInv c x o w as a
  | add {w as bs a} (b : Bool) : ¬a.last &&& 0xF8 = 0x88 →
      G c.dial .add x o false as a.left → a.op ∈ addOps → Fits o ⟨a.op, b⟩ →
      G c.dial .mul x o w bs a.node → ArInv c x o w (as ++ ⟨a.op, b⟩ :: bs) a

theorem ArInv.tree {e : Env} {w : Bool} {as : Toks} {a : Ar} (h : ArInv c e.ctx e.outer w as a) :
    G c.dial .add e.ctx e.outer w as a.tree := by
  cases h with
  | mul _ h => exact .add0 h
  | add b _ h1 h2 h3 h4 => exact .add b h1 h2 h3 h4

theorem mulLoop_sound (hu : Sound c .unary un) :
    ∀ (f : Nat) (e : Env) (as : Toks) (w : Bool) (a : Ar) (ts : Toks) (a' : Ar) (r : Toks),
      Clean c ts → ArInv c e.ctx e.outer w as a → Shut w ts →
      mulLoop c un f e a ts = .ok a' r →
      ∃ s w', ts = s ++ r ∧ ArInv c e.ctx e.outer w' (as ++ s) a' ∧ Shut w' r := by
  intro f
  induction f with
  | zero => intro e as w a ts a' r _ _ _ h; cases h
  | succ f ih =>
    intro e as w a ts a' r hc ha hs h
    unfold mulLoop at h
    split at h
    · next hm =>
      have hm' := (code_mul _).1 hm
      change (peek ts).kind.code &&& 0xF8 = 0x88 at hm
      simp only [Tok.op] at h
      have hcon : continues (peek ts).kind = true :=
        (continues_iff _).2 (by simp [continuers, hm'])
      obtain rfl := hs.closed rfl hcon
      generalize hk : (peek ts).kind = k at hm hm' h
      obtain ⟨b, ts, rfl⟩ := kind_ex hk (mem_ne_eof hm' (by decide))
      obtain ⟨y, r1, h1, h2⟩ := andThen_ok (deeper_ok h)
      obtain ⟨p, w', hp, hg, hs'⟩ := hu _ _ y r1 hc.tail h1
      simp only [List.tail_cons] at hp
      subst hp
      have hc' : Clean c r1 := hc.of_subset (by simp; grind)
      split at h2
      · next hl =>
        cases ha with
        | add _ hn => exact absurd hl hn
        | mul _ ha =>
          obtain ⟨s, w2, rfl, h3, h4⟩ := ih { e with depth := e.depth + 1 } (as ++ ⟨k, b⟩ :: p) w' _ _ a' r hc'
            (.mul (a := ⟨k, a.tree, y, k.code⟩) hm (.mul b ha hm' hg)) hs' h2
          exact ⟨⟨k, b⟩ :: p ++ s, w2, by simp, by simpa [Env.ctx, Env.outer] using h3, h4⟩
      · next hl =>
        cases ha with
        | mul hn => exact absurd hn hl
        | @add as bs _ b1 hn hleft hop hfit hnode =>
          obtain ⟨s, w2, rfl, h3, h4⟩ := ih { e with depth := e.depth + 1 }
            (as ++ ⟨a.op, b1⟩ :: (bs ++ ⟨k, b⟩ :: p)) w' _ _ a' r hc'
            (ArInv.add (a := ⟨a.op, a.left, .oper k [a.node, y], a.last⟩) b1 hn hleft hop hfit (.mul b hnode hm' hg)) hs' h2
          exact ⟨⟨k, b⟩ :: p ++ s, w2, by simp, by simpa [Env.ctx, Env.outer] using h3, h4⟩
    · cases h
      exact ⟨[], w, rfl, by simpa using ha, hs⟩

theorem arLoop_sound (hu : Sound c .unary un) :
    ∀ (f : Nat) (e : Env) (as : Toks) (w : Bool) (a : Ar) (ts : Toks) (t : Ast) (r : Toks),
      Clean c ts → ArInv c e.ctx e.outer w as a → Shut w ts →
      arLoop c un f e a ts = .ok t r →
      ∃ s w', ts = s ++ r ∧ G c.dial .add e.ctx e.outer w' (as ++ s) t ∧ Shut w' r := by
  intro f
  induction f with
  | zero => intro e as w a ts a' r _ _ _ h; cases h
  | succ f ih =>
    intro e as w a ts t r hc ha hs h
    unfold arLoop at h
    have h := deeper_ok h
    split at h
    · next hm =>
      have hm' : (peek ts).kind ∈ addOps := by
        simpa [Tok.isOp, addOps] using hm
      have hcon : continues (peek ts).kind = true :=
        (continues_iff _).2 (by simp [continuers, hm'])
      obtain rfl := hs.closed rfl hcon
      split at h
      · cases h
      · next hb =>
        simp only [Tok.op] at h
        generalize hk : (peek ts).kind = k at hm' h
        obtain ⟨b, ts, rfl⟩ := kind_ex hk (mem_ne_eof hm' (by decide))
        obtain ⟨y, r1, h1, h2⟩ := andThen_ok h
        obtain ⟨p, w', hp, hg, hs'⟩ := hu _ _ y r1 hc.tail h1
        simp only [List.tail_cons] at hp
        subst hp
        have hfit : Fits e.outer ⟨k, b⟩ := by
          rintro ⟨h3, h4⟩
          apply hb
          have h4 : b = true := h4
          simp only [badEol, peek, h4]
          exact h3
        have hn : ¬k.code &&& 0xF8 = 0x88 := by
          intro h3
          have := (code_mul _).1 h3
          simp only [addOps, List.mem_cons, List.not_mem_nil, or_false] at hm'
          rcases hm' with rfl | rfl <;> revert this <;> decide
        obtain ⟨s, w2, rfl, h3, h4⟩ := ih { e with depth := e.depth + 1 } (as ++ ⟨k, b⟩ :: p) w' _ _ t r
          (hc.of_subset (by simp; grind))
          (ArInv.add (a := ⟨k, a.tree, y, k.code⟩) b hn ha.tree hm' hfit (.mul0 hg)) hs' h2
        exact ⟨⟨k, b⟩ :: p ++ s, w2, by simp, by simpa [Env.ctx, Env.outer] using h3, h4⟩
    · split at h
      · obtain ⟨a', r1, h1, h2⟩ := andThen_ok h
        obtain ⟨s, w', rfl, h3, h4⟩ := mulLoop_sound hu _ { e with depth := e.depth + 1 } as w a
          ts a' r1 hc ha hs h1
        obtain ⟨s', w2, rfl, h5, h6⟩ := ih { e with depth := e.depth + 1 } (as ++ s) w' a' r1 t r hc.right h3 h4 h2
        exact ⟨s ++ s', w2, by simp, by simpa [Env.ctx, Env.outer] using h5, h6⟩
      · split at h
        · cases h
        · cases h
          exact ⟨[], w, rfl, by simpa [Ar.tree] using ha.tree, hs⟩

theorem bitLoop_sound (hu : Sound c .unary un) (k : Op) (hk : k ∈ bitOps) :
    ∀ (f : Nat) (e : Env) (as : Toks) (w : Bool) (x : Ast) (ts : Toks) (t : Ast) (r : Toks),
      Clean c ts →
      ((G c.dial .unary e.ctx e.outer w as x ∧ (peek ts).op = k.code) ∨
        G c.dial (.bit k) e.ctx e.outer w as x) → Shut w ts →
      bitLoop c un k.code f e x ts = .ok t r →
      ∃ s w', ts = s ++ r ∧ G c.dial (.bit k) e.ctx e.outer w' (as ++ s) t ∧ Shut w' r := by
  intro f
  induction f with
  | zero => intro e as w a ts a' r _ _ _ h; cases h
  | succ f ih =>
    intro e as w x ts t r hc hx hs h
    unfold bitLoop at h
    split at h
    · next hm =>
      have hm := code_inj hm
      rw [hm] at h
      have hcon : continues (peek ts).kind = true :=
        (continues_iff _).2 (by simp [continuers, hm, hk])
      obtain rfl := hs.closed rfl hcon
      obtain ⟨b, ts, rfl⟩ := kind_ex hm (by simp)
      obtain ⟨y, r1, h1, h2⟩ := andThen_ok (deeper_ok h)
      obtain ⟨p, w', hp, hg, hs'⟩ := hu _ _ y r1 hc.tail h1
      simp only [List.tail_cons] at hp
      subst hp
      have hbit : G c.dial (.bit k) e.ctx e.outer w' (as ++ ⟨.op k, b⟩ :: p)
          (.oper (.op k) [x, y]) := by
        rcases hx with ⟨hx, -⟩ | hx
        · exact .bit1 b hk hx hg
        · exact .bit b hx hg
      obtain ⟨s, w2, rfl, h3, h4⟩ := ih { e with depth := e.depth + 1 } _ w' _ r1 t r
        (hc.of_subset (by simp; grind)) (.inr hbit) hs' h2
      exact ⟨⟨.op k, b⟩ :: p ++ s, w2, by simp, by simpa [Env.ctx, Env.outer] using h3, h4⟩
    · next hm =>
      split at h
      · cases h
      · cases h
        rcases hx with ⟨-, hx⟩ | hx
        · exact absurd hx hm
        · exact ⟨[], w, rfl, by simpa using hx, hs⟩

theorem arith_sound (hu : Sound c .unary un) : Sound c .arith (arith c un) := by
  intro e ts t r hc h
  obtain ⟨x, r1, h1, h2⟩ := andThen_ok h
  obtain ⟨p, w, rfl, hg, hs⟩ := hu e ts x r1 hc h1
  have hcr := hc.right
  have closed : (peek r1).kind ∈ continuers → w = false := fun h =>
    hs.closed rfl ((continues_iff _).2 h)
  split at h2
  · next ha0 =>
    have ha := (code_arith _).1 ha0
    obtain rfl := closed (by rcases ha with ha | ha <;> simp [continuers, ha])
    split at h2
    · cases h2
    · next hb =>
      simp only [Tok.op] at h2
      generalize hk : (peek r1).kind = k at ha h2
      obtain ⟨b, r1, rfl⟩ := kind_ex hk
        (ha.elim (mem_ne_eof · (by decide)) (mem_ne_eof · (by decide)))
      obtain ⟨y, r2, h3, h4⟩ := andThen_ok h2
      obtain ⟨q, w', hq, hg', hs'⟩ := hu _ _ y r2 hcr.tail h3
      simp only [List.tail_cons] at hq
      subst hq
      obtain ⟨s, w2, rfl, h5, h6⟩ := arLoop_sound hu _ e (p ++ ⟨k, b⟩ :: q) w' _ _ t r
        (hc.of_subset (by simp; grind)) (by
          by_cases hm : k ∈ mulOps
          · exact .mul ((code_mul _).2 hm) (.mul b (.mul0 hg) hm hg')
          · have ha := ha.resolve_left hm
            refine ArInv.add (a := ⟨k, x, y, k.code⟩) b (fun h => hm ((code_mul _).1 h))
              (.add0 (.mul0 hg)) ha ?_ (.mul0 hg')
            rintro ⟨h5, h6⟩
            apply hb
            have : ((peek (⟨k, b⟩ :: (q ++ r2))).isOp .add
              || (peek (⟨k, b⟩ :: (q ++ r2))).isOp .sub) = true := by
              simp only [addOps, List.mem_cons, List.not_mem_nil, or_false] at ha
              rcases ha with rfl | rfl <;> rfl
            rw [this]
            have h6 : b = true := h6
            simp only [badEol, peek, h6]
            exact h5) hs' h4
      exact ⟨p ++ ⟨k, b⟩ :: q ++ s, w2, by simp, .arith h5, h6⟩
  · split at h2
    · next hb =>
      obtain ⟨o, ho, hk⟩ := (code_bit _).1 hb
      simp only [Tok.op, hk] at h2
      obtain ⟨s, w', rfl, h3, h4⟩ := bitLoop_sound hu o ho _ e p w x r1 t r hcr
        (.inl ⟨hg, by simp [Tok.op, hk, Kind.code]⟩) hs h2
      exact ⟨p ++ s, w', by simp, .arithBit o h3, h4⟩
    · split at h2
      · next hm0 =>
        have hm : (peek r1).kind ∈ shiftOps := by
          simpa [Tok.isOp, shiftOps, or_assoc] using hm0
        obtain rfl := closed (by simp [continuers, hm])
        generalize hk : (peek r1).kind = k at hm h2
        obtain ⟨b, r1, rfl⟩ := kind_ex hk (mem_ne_eof hm (by decide))
        obtain ⟨y, r2, h3, h4⟩ := andThen_ok h2
        obtain ⟨q, w', hq, hg', hs'⟩ := hu _ _ y r2 hcr.tail h3
        simp only [List.tail_cons] at hq
        subst hq
        cases h4
        exact ⟨p ++ ⟨k, b⟩ :: q, w', by simp, .arithShift (.shift1 b hm hg hg'), hs'⟩
      · cases h2
        exact ⟨p, w, rfl, .arith (.add0 (.mul0 hg)), hs⟩

theorem comparison_sound {ar : P} (ha : Sound c .arith ar) :
    Sound c .comparison (comparison ar) := by
  intro e ts t r hc h
  obtain ⟨x, r1, h1, h2⟩ := andThen_ok h
  obtain ⟨p, w, rfl, hg, hs⟩ := ha e ts x r1 hc h1
  have hcr := hc.right
  have closed : (peek r1).kind ∈ continuers → w = false := fun h =>
    hs.closed rfl ((continues_iff _).2 h)
  split at h2
  · next hm0 =>
    have hm : (peek r1).kind ∈ swapOps := by simpa [Tok.isKw, swapOps] using hm0
    obtain rfl := closed (by simp [continuers, hm])
    generalize hk : (peek r1).kind = k at hm h2
    obtain ⟨b, r1, rfl⟩ := kind_ex hk (mem_ne_eof hm (by decide))
    obtain ⟨y, r2, h3, h4⟩ := andThen_ok h2
    obtain ⟨q, w', hq, hg', hs'⟩ := ha _ _ y r2 hcr.tail h3
    simp only [List.tail_cons] at hq
    subst hq
    cases h4
    exact ⟨p ++ ⟨k, b⟩ :: q, w', by simp, .swap b hg hm hg', hs'⟩
  · split at h2
    · next hm0 =>
      have hm : (peek r1).kind ∈ cmpOps := by
        have hm := hm0
        simp only [Bool.or_eq_true, decide_eq_true_eq, Tok.isKw] at hm
        rcases hm with hm | hm
        · exact ((code_cmp _).1 hm).1
        · rw [hm]; decide
      obtain rfl := closed (by simp [continuers, hm])
      generalize hk : (peek r1).kind = k at hm h2
      obtain ⟨b, r1, rfl⟩ := kind_ex hk (mem_ne_eof hm (by decide))
      obtain ⟨y, r2, h3, h4⟩ := andThen_ok h2
      obtain ⟨q, w', hq, hg', hs'⟩ := ha _ _ y r2 hcr.tail h3
      simp only [List.tail_cons] at hq
      subst hq
      cases h4
      exact ⟨p ++ ⟨k, b⟩ :: q, w', by simp, .cmp b hg hm hg', hs'⟩
    · cases h2
      exact ⟨p, w, rfl, .cmp0 hg, hs⟩

theorem logicLoop_sound {co : P} (ha : Sound c .comparison co) (k : Op) (hk : k ∈ logicOps) :
    ∀ (f : Nat) (e : Env) (ts : Toks) (t : Ast) (r : Toks), Clean c ts →
      logicLoop c co k f e ts = .ok t r →
      Phrase c .comparison e ts t r ∨ Phrase c (.logic k) e ts t r := by
  intro f
  induction f with
  | zero => intro e ts t r _ h; cases h
  | succ f ih =>
    intro e ts t r hc h
    unfold logicLoop at h
    obtain ⟨x, r1, h1, h2⟩ := andThen_ok (deeper_ok h)
    obtain ⟨p, w, rfl, hg, hs⟩ := ha _ ts x r1 hc h1
    split at h2
    · next ho =>
      obtain ⟨b, r1, rfl⟩ := isOp_ex ho
      obtain rfl := hs.closed rfl ((continues_iff _).2 (by simp [continuers, peek, hk]))
      obtain ⟨y, r2, h3, h4⟩ := andThen_ok h2
      cases h4
      right
      rcases ih _ _ y r hc.right.tail h3 with ⟨q, w', hq, hg', hs'⟩ | ⟨q, w', hq, hg', hs'⟩
      all_goals
        simp only [List.tail_cons] at hq
        subst hq
      · exact ⟨p ++ ⟨.op k, b⟩ :: q, w', by simp, .logic1 b hk hg hg', hs'⟩
      · exact ⟨p ++ ⟨.op k, b⟩ :: q, w', by simp, .logic b hg hg', hs'⟩
    · split at h2
      · cases h2
      · cases h2
        exact .inl ⟨p, w, rfl, hg, hs⟩

theorem logical_sound {co : P} (ha : Sound c .comparison co) : Sound c .logical (logical c co) := by
  intro e ts t r hc h
  obtain ⟨x, r1, h1, h2⟩ := andThen_ok h
  obtain ⟨p, w, rfl, hg, hs⟩ := ha e ts x r1 hc h1
  have op : ∀ {k : Op}, k ∈ logicOps → (peek r1).kind = .op k → ∀ {n},
      ((logicLoop c co k n e r1.tail).andThen fun y r' => .ok (.oper (.op k) [x, y]) r')
        = .ok t r → Phrase c .logical e (p ++ r1) t r := by
    intro k hk hkind n h
    obtain ⟨b, r1, rfl⟩ := kind_ex hkind (by simp)
    obtain rfl := hs.closed hkind ((continues_iff _).2 (by simp [continuers, hk]))
    obtain ⟨y, r2, h3, h4⟩ := andThen_ok h
    cases h4
    rcases logicLoop_sound ha k hk _ _ _ y r hc.right.tail h3 with
      ⟨q, w', hq, hg', hs'⟩ | ⟨q, w', hq, hg', hs'⟩
    all_goals
      simp only [List.tail_cons] at hq
      subst hq
    · exact ⟨p ++ ⟨.op k, b⟩ :: q, w', by simp, .logical k (.logic1 b hk hg hg'), hs'⟩
    · exact ⟨p ++ ⟨.op k, b⟩ :: q, w', by simp, .logical k (.logic b hg hg'), hs'⟩
  split at h2
  · next hk => exact op (by decide) hk h2
  · next hk => exact op (by decide) hk h2
  · cases h2
    exact ⟨p, w, rfl, .logical0 hg, hs⟩

theorem conditional_sound {lo : P} (ha : Sound c .logical lo) :
    ∀ f, Sound c .cond (conditional c lo f) := by
  intro f
  induction f with
  | zero => intro e ts t r _ h; cases h
  | succ f ih =>
    intro e ts t r hc h
    unfold conditional at h
    obtain ⟨x, r1, h1, h2⟩ := andThen_ok h
    obtain ⟨p, w, rfl, hg, hs⟩ := ha e ts x r1 hc h1
    split at h2
    · next ho =>
      obtain ⟨b, r1, rfl⟩ := isOp_ex ho
      obtain rfl := hs.closed rfl rfl
      obtain ⟨y, r2, h3, h4⟩ := andThen_ok (deeper_ok h2)
      obtain ⟨q, w', hq, hg', -⟩ := ih _ _ y r2 hc.right.tail h3
      simp only [List.tail_cons] at hq
      subst hq
      obtain ⟨h5, h6⟩ := assume_ok h4
      obtain ⟨b', r2, rfl⟩ := isSep_ex h5
      obtain ⟨z, r3, h7, h8⟩ := andThen_ok h6
      obtain ⟨s, w2, hs2, hg2, hs3⟩ := ih _ _ z r3 (hc.of_subset (by simp; grind)) h7
      simp only [List.tail_cons] at hs2
      subst hs2
      cases h8
      rw [Env.inner_outer] at hg'
      exact ⟨p ++ ⟨.op .tri, b⟩ :: q ++ ⟨.sep .colon, b'⟩ :: s, w2, by simp,
        .cond b b' hg hg' hg2, hs3⟩
    · cases h2
      exact ⟨p, w, rfl, .cond0 hg, hs⟩

theorem streamLoop_sound {cd : P} (ha : Sound c .cond cd) :
    ∀ (f : Nat) (e : Env) (as : Toks) (w : Bool) (x : Ast) (ts : Toks) (t : Ast) (r : Toks),
      Clean c ts → G c.dial .stream e.ctx e.outer w as x → Shut w ts →
      streamLoop c cd f e x ts = .ok t r →
      ∃ s w', ts = s ++ r ∧ G c.dial .stream e.ctx e.outer w' (as ++ s) t ∧ Shut w' r := by
  intro f
  induction f with
  | zero => intro e as w a ts a' r _ _ _ h; cases h
  | succ f ih =>
    intro e as w x ts t r hc hx hs h
    unfold streamLoop at h
    split at h
    · next ho =>
      obtain ⟨b, ts, rfl⟩ := isOp_ex ho
      obtain rfl := hs.closed rfl rfl
      obtain ⟨g, r1, h1, h2⟩ := andThen_ok (deeper_ok h)
      obtain ⟨p, w', hp, hg, hs'⟩ := ha _ _ g r1 hc.tail h1
      simp only [List.tail_cons] at hp
      subst hp
      split at h2
      · cases h2
      · next g' hg' =>
        obtain ⟨s, w2, rfl, h3, h4⟩ := ih { e with depth := e.depth + 1 } (as ++ ⟨.op .arrow, b⟩ :: p) w'
          _ r1 t r
          (hc.of_subset (by simp; grind)) (.stream b hx hg (callee_iff.1 hg')) hs' h2
        exact ⟨⟨.op .arrow, b⟩ :: p ++ s, w2, by simp, by simpa [Env.ctx, Env.outer] using h3, h4⟩
    · cases h
      exact ⟨[], w, rfl, by simpa using hx, hs⟩

theorem stream_sound {cd : P} (ha : Sound c .cond cd) : Sound c .stream (stream c cd) := by
  intro e ts t r hc h
  obtain ⟨x, r1, h1, h2⟩ := andThen_ok (deeper_ok h)
  obtain ⟨p, w, rfl, hg, hs⟩ := ha _ ts x r1 hc h1
  obtain ⟨s, w2, rfl, h3, h4⟩ := streamLoop_sound ha _ _ p w x r1 t r hc.right
    (.stream0 hg) hs h2
  exact ⟨p ++ s, w2, by simp, h3, h4⟩

theorem async_sound {st : P} (ha : Sound c .stream st) {e : Env} {ts r : Toks} {t : Ast}
    (b : Bool) (hc : Clean c ts) (h : async st e ts = .ok t r) :
    Phrase c .async e (⟨.kw .async, b⟩ :: ts) t r := by
  obtain ⟨x, r1, h1, h2⟩ := andThen_ok h
  obtain ⟨p, w, rfl, hg, hs⟩ := ha _ ts x r1 hc h1
  split at h2
  · next hi =>
    cases h2
    exact ⟨_ :: p, w, rfl, .async b hg hi, hs⟩
  · cases h2

theorem rhsBody_sound {st : P} (ha : Sound c .stream st) : Sound c .rhs (rhsBody st) := by
  intro e ts t r hc h
  unfold rhsBody at h
  split at h
  · next hy =>
    split at h
    · cases h
    · next hn =>
      have hn : e.ctx.ctor = false := Bool.eq_false_iff.2 hn
      split at h
      · next hy2 =>
        obtain ⟨b, ts, rfl⟩ := isKw_ex hy
        obtain ⟨b', ts, rfl⟩ := isKw_ex hy2
        obtain ⟨x, r1, h1, h2⟩ := andThen_ok h
        cases h2
        obtain ⟨p, w, hp, hg, hs⟩ := async_sound ha b' hc.tail.tail h1
        exact ⟨⟨.kw .yield, b⟩ :: p, w, congrArg _ hp, .yieldAsync b hn hg, hs⟩
      · obtain ⟨b, ts, rfl⟩ := isKw_ex hy
        obtain ⟨x, r1, h1, h2⟩ := andThen_ok h
        cases h2
        obtain ⟨p, w, hp, hg, hs⟩ := ha _ _ x r hc.tail h1
        exact ⟨⟨.kw .yield, b⟩ :: p, w, congrArg _ hp, .yield b hn hg, hs⟩
  · split at h
    · next hy =>
      obtain ⟨b, ts, rfl⟩ := isKw_ex hy
      obtain ⟨p, w, hp, hg, hs⟩ := async_sound ha b hc.tail h
      exact ⟨p, w, hp, .rhsAsync hg, hs⟩
    · obtain ⟨p, w, hp, hg, hs⟩ := ha _ _ t r hc h
      exact ⟨p, w, hp, .rhs hg, hs⟩

theorem rhsN_sound : ∀ n, Sound c .rhs (rhsN c n) := by
  intro n
  induction n with
  | zero => intro e ts t r _ h; cases h
  | succ n ih =>
    have hu : Sound c .unary (unaryP c (rhsN c n)) := fun e ts => unary_sound ih _ e ts
    have hl : Sound c .logical (logicalP c (rhsN c n)) :=
      logical_sound (comparison_sound (arith_sound hu))
    have hcd : Sound c .cond (condP c (rhsN c n)) := fun e ts => conditional_sound hl _ e ts
    exact rhsBody_sound (stream_sound hcd)

theorem parseRhs_sound : Sound c .rhs (parseRhs c) := fun e ts => rhsN_sound _ e ts

end

end Verif.Expr
