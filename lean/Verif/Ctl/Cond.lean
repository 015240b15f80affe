import Verif.Ctl.Gen

/-
Conditions: what the generated jumps do (`route`), for every condition.
-/
namespace Verif.Ctl

variable {σ V : Type}

/-! ### Steps of the machine -/

theorem Reach.trans {S : Sem σ V} {P : Prog} {j k : Nat} {a b c : Cfg σ V} (h : Reach S P j a b) (h' : Reach S P k b c) :
    Reach S P (j + k) a c := by
  induction h with
  | refl => simpa using h'
  | @cons m _ _ _ hs _ ih =>
    have := Reach.cons hs (ih h')
    rwa [Nat.add_right_comm] at this

theorem Reach.one {S : Sem σ V} {P : Prog} {a b : Cfg σ V} (h : step S P a = .run b) : Reach S P 1 a b :=
  Reach.cons h (Reach.refl _)

theorem Reach.snoc {S : Sem σ V} {P : Prog} {j : Nat} {a b c : Cfg σ V} (h : Reach S P j a b) (h' : step S P b = .run c) :
    Reach S P (j + 1) a c := h.trans (Reach.one h')

/-- Registers below `d` are the same. -/
def Agree (d : Nat) (a b : Cfg σ V) : Prop := ∀ q, q < d → b.regs q = a.regs q

theorem Agree.refl (d : Nat) (a : Cfg σ V) : Agree d a a := fun _ _ => rfl

theorem Agree.trans {d : Nat} {a b c : Cfg σ V} (h : Agree d a b) (h' : Agree d b c) : Agree d a c :=
  fun q hq => (h' q hq).trans (h q hq)

theorem Agree.mono {d d' : Nat} {a b : Cfg σ V} (h : Agree d a b) (hd : d' ≤ d) : Agree d' a b := fun q hq => h q (by omega)

theorem Agree.map {d : Nat} {a b : Cfg σ V} (h : Agree d a b) {env : List Nat} (he : ∀ q ∈ env, q < d) :
    env.map b.regs = env.map a.regs := List.map_congr_left fun q hq => h q (he q hq)

theorem getElem?_of_prefix {α : Type} {l l' : List α} (h : l <+: l') {i : Nat} {a : α} (hi : l[i]? = some a) : l'[i]? = some a := by
  obtain ⟨t, rfl⟩ := h
  have : i < l.length := by
    rcases Nat.lt_or_ge i l.length with h | h
    · exact h
    · rw [List.getElem?_eq_none h] at hi; cases hi
  rw [List.getElem?_append_left this, hi]

/-! ### Routes -/

inductive Route
  | far | near | fall
  deriving DecidableEq, Repr

def Route.swap : Route → Route
  | .far => .near
  | .near => .far
  | .fall => .fall

/-- Which way the code of a condition goes: the far jump, the near jump or past the end. -/
def route (S : Sem σ V) (env : List V) : Cond → Bool → σ → Res σ V Route
  | .leaf i _, op, s =>
    match S.expr i env s with
    | .ok v s => .ok (if S.truthy v = op then .far else .fall) s
    | .exn v s => .exn v s
  | .not c, op, s => route S env c (!op) s
  | .or a b, op, s =>
    match route S env a true s with
    | .exn v s => .exn v s
    | .ok .fall s => route S env b op s
    | .ok r s => .ok (if op then r else r.swap) s
  | .and a b, op, s =>
    match route S env a false s with
    | .exn v s => .exn v s
    | .ok .fall s => route S env b op s
    | .ok r s => .ok (if op then r.swap else r) s

/-- Where the machine gets to. -/
structure Arrive (S : Sem σ V) (P : Prog) (d : Nat) (c : Cfg σ V) (k pc : Nat) (s : σ) (c' : Cfg σ V) : Prop where
  reach : Reach S P k c c'
  pc    : c'.pc = pc
  mem   : c'.mem = s
  hnd   : c'.hnd = c.hnd
  regs  : Agree d c c'

theorem Arrive.trans {S : Sem σ V} {P : Prog} {d : Nat} {a b c : Cfg σ V} {j k p q : Nat} {s t : σ}
    (h : Arrive S P d a j p s b) (h' : Arrive S P d b k q t c) : Arrive S P d a (j + k) q t c :=
  ⟨h.reach.trans h'.reach, h'.pc, h'.mem, h'.hnd.trans h.hnd, h.regs.trans h'.regs⟩

/-- An exception is raised. -/
structure Raises (S : Sem σ V) (P : Prog) (d : Nat) (c : Cfg σ V) (v : V) (s : σ) (k : Nat) (c' : Cfg σ V) : Prop where
  reach : Reach S P k c c'
  step  : step S P c' = raise S v c' s
  hnd   : c'.hnd = c.hnd
  regs  : Agree d c c'

theorem Raises.after {S : Sem σ V} {P : Prog} {d : Nat} {a b c : Cfg σ V} {j k p : Nat} {s t : σ} {v : V}
    (h : Arrive S P d a j p s b) (h' : Raises S P d b v t k c) : Raises S P d a v t (j + k) c :=
  ⟨h.reach.trans h'.reach, h'.step, h'.hnd.trans h.hnd, h.regs.trans h'.regs⟩

/-- What the machine does on the code of a condition. -/
def Goes (S : Sem σ V) (P : Prog) (d : Nat) (c : Cfg σ V) (F N E : Nat) : Res σ V Route → Prop
  | .ok .far s => ∃ k c', Arrive S P d c (k + 1) F s c'
  | .ok .near s => ∃ k c', Arrive S P d c (k + 1) N s c'
  | .ok .fall s => ∃ k c', Arrive S P d c k E s c'
  | .exn v s => ∃ k c', Raises S P d c v s k c'

theorem Goes.after {S : Sem σ V} {P : Prog} {d : Nat} {a b : Cfg σ V} {j p F N E : Nat} {s : σ} {r : Res σ V Route}
    (h : Arrive S P d a j p s b) (h' : Goes S P d b F N E r) : Goes S P d a F N E r := by
  match r, h' with
  | .ok .far _, ⟨k, c', h'⟩ => exact ⟨j + k, c', h.trans h'⟩
  | .ok .near _, ⟨k, c', h'⟩ => exact ⟨j + k, c', h.trans h'⟩
  | .ok .fall _, ⟨k, c', h'⟩ => exact ⟨j + k, c', h.trans h'⟩
  | .exn _ _, ⟨k, c', h'⟩ => exact ⟨j + k, c', .after h h'⟩

/-- Only instructions and entries were added. -/
def Adds (st st' : St) (cs : List Instr) (m : Nat) : Prop := st' = { st with code := st.code ++ cs, n := st.n + m }

theorem Adds.trans {a b c : St} {cs ds : List Instr} {m k : Nat} (h : Adds a b cs m) (h' : Adds b c ds k) :
    Adds a c (cs ++ ds) (m + k) := by
  subst h; subst h'; simp [Adds, Nat.add_assoc]

theorem Adds.pre {a b : St} {cs : List Instr} {m : Nat} (h : Adds a b cs m) : a.code <+: b.code := by
  subst h; exact ⟨cs, rfl⟩

theorem genInner_spec (S : Sem σ V) (P : Prog) (x : Ctx) (henv : ∀ q ∈ x.env, q < x.d) (c : Cond) (hk : Known S c) :
    ∀ (op : Bool) (st : St) (J N : List Nat), ∃ cs m Jn Nn,
      genInner x c op st J N = ({ st with code := st.code ++ cs, n := st.n + m }, J ++ Jn, N ++ Nn) ∧
      (Jn ++ Nn).Perm (List.range' st.n m) ∧
      ∀ (F E : Nat), (∀ e ∈ Jn, P.tgt e = some F) → (∀ e ∈ Nn, P.tgt e = some E) → st.code ++ cs <+: P.code →
        ∀ (cf : Cfg σ V), cf.pc = st.pc →
          Goes S P x.d cf F E (st.pc + cs.length) (route S (x.env.map cf.regs) c op cf.mem) := by
  induction c with
  | not c ih => intro op st J N; exact ih hk (!op) st J N
  | leaf i known =>
    intro op st J N
    simp only [genInner]
    split
    · rename_i h
      refine ⟨[.jmp st.n], 1, [st.n], [], by simp [St.emitJ], by simp, fun F E hF hE hP cf hpc => ?_⟩
      obtain ⟨-, rfl⟩ := h
      obtain ⟨v, hv, ht⟩ := hk (x.env.map cf.regs) cf.mem
      simp only [route, hv, ht, if_true, Goes]
      refine ⟨0, { cf with pc := F }, Reach.one ?_, rfl, rfl, rfl, fun _ _ => rfl⟩
      have : P.code[cf.pc]? = some (.jmp st.n) := getElem?_of_prefix hP (by simp [hpc, St.pc])
      simp [step, this, goto, hF st.n (by simp)]
    · split
      · rename_i h
        refine ⟨[], 0, [], [], by simp, by simp, fun F E hF hE hP cf hpc => ?_⟩
        obtain ⟨-, rfl⟩ := h
        obtain ⟨v, hv, ht⟩ := hk (x.env.map cf.regs) cf.mem
        have : (!op) ≠ op := by cases op <;> simp
        simp only [route, hv, ht, if_neg this, Goes]
        exact ⟨0, cf, .refl _, by simp [hpc], rfl, rfl, fun _ _ => rfl⟩
      · refine ⟨[.eval i x.d x.env, .jcond op x.d st.n], 1, [st.n], [], by simp [St.emitJ, St.emit], by simp,
          fun F E hF hE hP cf hpc => ?_⟩
        have h0 : P.code[cf.pc]? = some (.eval i x.d x.env) := getElem?_of_prefix hP (by simp [hpc, St.pc])
        have h1 : P.code[cf.pc + 1]? = some (.jcond op x.d st.n) :=
          getElem?_of_prefix hP (by simp [hpc, St.pc])
        simp only [route]
        rcases hv : S.expr i (x.env.map cf.regs) cf.mem with ⟨v, s⟩ | ⟨v, s⟩
        · have s0 : step S P cf = .run ⟨cf.pc + 1, upd cf.regs x.d v, cf.hnd, s⟩ := by simp [step, h0, hv]
          simp only
          split
          · rename_i ht
            refine ⟨1, ⟨F, upd cf.regs x.d v, cf.hnd, s⟩, (Reach.one s0).snoc ?_, rfl, rfl, rfl, fun q hq => ?_⟩
            · simp [step, h1, upd, ht, goto, hF st.n (by simp)]
            · simp [upd, Nat.ne_of_lt hq]
          · rename_i ht
            refine ⟨2, ⟨cf.pc + 1 + 1, upd cf.regs x.d v, cf.hnd, s⟩, (Reach.one s0).snoc ?_, by simp [hpc], rfl, rfl,
              fun q hq => ?_⟩
            · simp [step, h1, upd, ht]
            · simp [upd, Nat.ne_of_lt hq]
        · exact ⟨0, cf, .refl _, by simp [step, h0, hv], rfl, fun _ _ => rfl⟩
  | or a b iha ihb =>
    intro op st J N
    cases op
    · obtain ⟨ca, ma, Ja, Na, ha, pa, sa⟩ := iha hk.1 true st N J
      obtain ⟨cb, mb, Jb, Nb, hb, pb, sb⟩ := ihb hk.2 false { st with code := st.code ++ ca, n := st.n + ma } (J ++ Na) (N ++ Ja)
      refine ⟨ca ++ cb, ma + mb, Na ++ Jb, Ja ++ Nb, ?_, ?_, ?_⟩
      · simp [genInner, ha, hb, Nat.add_assoc]
      · rw [← List.range'_append_1]
        refine List.Perm.trans ?_ (pa.append pb)
        grind
      · intro F E hF hE hP cf hpc
        rw [← List.append_assoc] at hP
        have ga := sa E F (fun e he => hE e (by simp [he])) (fun e he => hF e (by simp [he]))
          ((List.prefix_append _ _).trans hP) cf hpc
        simp only [route]
        rcases hr : route S (x.env.map cf.regs) a true cf.mem with ⟨_ | _ | _, s⟩ | ⟨v, s⟩ <;> rw [hr] at ga
        · exact ga
        · exact ga
        · obtain ⟨k, c', h⟩ := ga
          have gb := sb F E (fun e he => hF e (by simp [he])) (fun e he => hE e (by simp [he])) hP c'
            (by simpa [St.pc] using h.pc)
          rw [h.regs.map henv, h.mem] at gb
          have := Goes.after h gb
          simpa [St.pc, Nat.add_assoc] using this
        · exact ga
    · obtain ⟨ca, ma, Ja, Na, ha, pa, sa⟩ := iha hk.1 true st J N
      obtain ⟨cb, mb, Jb, Nb, hb, pb, sb⟩ := ihb hk.2 true { st with code := st.code ++ ca, n := st.n + ma } (J ++ Ja) (N ++ Na)
      refine ⟨ca ++ cb, ma + mb, Ja ++ Jb, Na ++ Nb, ?_, ?_, ?_⟩
      · simp [genInner, ha, hb, Nat.add_assoc]
      · rw [← List.range'_append_1]
        refine List.Perm.trans ?_ (pa.append pb)
        grind
      · intro F E hF hE hP cf hpc
        rw [← List.append_assoc] at hP
        have ga := sa F E (fun e he => hF e (by simp [he])) (fun e he => hE e (by simp [he]))
          ((List.prefix_append _ _).trans hP) cf hpc
        simp only [route]
        rcases hr : route S (x.env.map cf.regs) a true cf.mem with ⟨_ | _ | _, s⟩ | ⟨v, s⟩ <;> rw [hr] at ga
        · exact ga
        · exact ga
        · obtain ⟨k, c', h⟩ := ga
          have gb := sb F E (fun e he => hF e (by simp [he])) (fun e he => hE e (by simp [he])) hP c'
            (by simpa [St.pc] using h.pc)
          rw [h.regs.map henv, h.mem] at gb
          have := Goes.after h gb
          simpa [St.pc, Nat.add_assoc] using this
        · exact ga
  | and a b iha ihb =>
    intro op st J N
    cases op
    · obtain ⟨ca, ma, Ja, Na, ha, pa, sa⟩ := iha hk.1 false st J N
      obtain ⟨cb, mb, Jb, Nb, hb, pb, sb⟩ := ihb hk.2 false { st with code := st.code ++ ca, n := st.n + ma } (J ++ Ja) (N ++ Na)
      refine ⟨ca ++ cb, ma + mb, Ja ++ Jb, Na ++ Nb, ?_, ?_, ?_⟩
      · simp [genInner, ha, hb, Nat.add_assoc]
      · rw [← List.range'_append_1]
        refine List.Perm.trans ?_ (pa.append pb)
        grind
      · intro F E hF hE hP cf hpc
        rw [← List.append_assoc] at hP
        have ga := sa F E (fun e he => hF e (by simp [he])) (fun e he => hE e (by simp [he]))
          ((List.prefix_append _ _).trans hP) cf hpc
        simp only [route]
        rcases hr : route S (x.env.map cf.regs) a false cf.mem with ⟨_ | _ | _, s⟩ | ⟨v, s⟩ <;> rw [hr] at ga
        · exact ga
        · exact ga
        · obtain ⟨k, c', h⟩ := ga
          have gb := sb F E (fun e he => hF e (by simp [he])) (fun e he => hE e (by simp [he])) hP c'
            (by simpa [St.pc] using h.pc)
          rw [h.regs.map henv, h.mem] at gb
          have := Goes.after h gb
          simpa [St.pc, Nat.add_assoc] using this
        · exact ga
    · obtain ⟨ca, ma, Ja, Na, ha, pa, sa⟩ := iha hk.1 false st N J
      obtain ⟨cb, mb, Jb, Nb, hb, pb, sb⟩ := ihb hk.2 true { st with code := st.code ++ ca, n := st.n + ma } (J ++ Na) (N ++ Ja)
      refine ⟨ca ++ cb, ma + mb, Na ++ Jb, Ja ++ Nb, ?_, ?_, ?_⟩
      · simp [genInner, ha, hb, Nat.add_assoc]
      · rw [← List.range'_append_1]
        refine List.Perm.trans ?_ (pa.append pb)
        grind
      · intro F E hF hE hP cf hpc
        rw [← List.append_assoc] at hP
        have ga := sa E F (fun e he => hE e (by simp [he])) (fun e he => hF e (by simp [he]))
          ((List.prefix_append _ _).trans hP) cf hpc
        simp only [route]
        rcases hr : route S (x.env.map cf.regs) a false cf.mem with ⟨_ | _ | _, s⟩ | ⟨v, s⟩ <;> rw [hr] at ga
        · exact ga
        · exact ga
        · obtain ⟨k, c', h⟩ := ga
          have gb := sb F E (fun e he => hF e (by simp [he])) (fun e he => hE e (by simp [he])) hP c'
            (by simpa [St.pc] using h.pc)
          rw [h.regs.map henv, h.mem] at gb
          have := Goes.after h gb
          simpa [St.pc, Nat.add_assoc] using this
        · exact ga

/-! ### Conditions for which the jumps are right -/

/-- Only `||` (or only `&&`), with `!` exchanging them. -/
def Mono : Bool → Cond → Prop
  | _, .leaf _ _ => True
  | op, .not c => Mono (!op) c
  | op, .or a b => op = true ∧ Mono op a ∧ Mono op b
  | op, .and a b => op = false ∧ Mono op a ∧ Mono op b

/-- Left operands of `||` have only `||` and left operands of `&&` have only `&&`. -/
def Straight : Cond → Prop
  | .leaf _ _ => True
  | .not c => Straight c
  | .or a b => Mono true a ∧ Straight b
  | .and a b => Mono false a ∧ Straight b

instance decMono : (op : Bool) → (c : Cond) → Decidable (Mono op c)
  | _, .leaf _ _ => isTrue trivial
  | op, .not c => decMono (!op) c
  | op, .or a b => @instDecidableAnd _ _ _ (@instDecidableAnd _ _ (decMono op a) (decMono op b))
  | op, .and a b => @instDecidableAnd _ _ _ (@instDecidableAnd _ _ (decMono op a) (decMono op b))

instance decStraight : (c : Cond) → Decidable (Straight c)
  | .leaf _ _ => isTrue trivial
  | .not c => decStraight c
  | .or a b => @instDecidableAnd _ _ (decMono true a) (decStraight b)
  | .and a b => @instDecidableAnd _ _ (decMono false a) (decStraight b)

/-- What the route should be. -/
def want (op : Bool) : Res σ V Bool → Res σ V Route
  | .ok b s => .ok (if b = op then .far else .fall) s
  | .exn v s => .exn v s

theorem route_mono (S : Sem σ V) (env : List V) (c : Cond) :
    ∀ (op : Bool) (s : σ), Mono op c → route S env c op s = want op (evalC S env c s) := by
  induction c with
  | leaf i known =>
    intro op s _
    simp only [route, evalC]
    rcases S.expr i env s with ⟨v, s⟩ | ⟨v, s⟩ <;> rfl
  | not c ih =>
    intro op s h
    simp only [route, evalC, ih (!op) s h]
    rcases evalC S env c s with ⟨b, s⟩ | ⟨v, s⟩ <;> simp [want]
  | or a b iha ihb =>
    intro op s h
    obtain ⟨rfl, ha, hb⟩ := h
    simp only [route, evalC, iha true s ha]
    rcases evalC S env a s with ⟨_ | _, s⟩ | ⟨v, s⟩ <;> simp [want]
    exact ihb true s hb
  | and a b iha ihb =>
    intro op s h
    obtain ⟨rfl, ha, hb⟩ := h
    simp only [route, evalC, iha false s ha]
    rcases evalC S env a s with ⟨_ | _, s⟩ | ⟨v, s⟩ <;> simp [want]
    exact ihb false s hb

/-- The route which is right: far if the value is `op`, and otherwise past the end, possibly with a near jump. -/
def Right (op : Bool) : Res σ V Bool → Res σ V Route → Prop
  | .ok b s, .ok r s' => s' = s ∧ (r = .far ↔ b = op)
  | .exn v s, .exn v' s' => s' = s ∧ v' = v
  | _, _ => False

theorem right_want (op : Bool) (r : Res σ V Bool) : Right op r (want op r) := by
  rcases r with ⟨b, s⟩ | ⟨v, s⟩ <;> simp [want, Right]

theorem route_right (S : Sem σ V) (env : List V) (c : Cond) :
    ∀ (op : Bool) (s : σ), Straight c → Right op (evalC S env c s) (route S env c op s) := by
  induction c with
  | leaf i known => intro op s _; rw [route_mono S env (.leaf i known) op s trivial]; exact right_want _ _
  | not c ih =>
    intro op s h
    have := ih (!op) s h
    simp only [route, evalC]
    rcases h1 : evalC S env c s with ⟨b, s1⟩ | ⟨v, s1⟩ <;> rcases h2 : route S env c (!op) s with ⟨b', s2⟩ | ⟨v', s2⟩ <;>
      rw [h1, h2] at this <;> simp [Right] at this ⊢
    · refine ⟨this.1, this.2.trans ?_⟩
      cases b <;> cases op <;> simp
    · exact this
  | or a b iha ihb =>
    intro op s h
    simp only [route, evalC, route_mono S env a true s h.1]
    rcases evalC S env a s with ⟨_ | _, s⟩ | ⟨v, s⟩ <;> simp [want]
    · exact ihb op s h.2
    · cases op <;> simp [Right, Route.swap]
    · simp [Right]
  | and a b iha ihb =>
    intro op s h
    simp only [route, evalC, route_mono S env a false s h.1]
    rcases evalC S env a s with ⟨_ | _, s⟩ | ⟨v, s⟩ <;> simp [want]
    · cases op <;> simp [Right, Route.swap]
    · exact ihb op s h.2
    · simp [Right]

/-! ### All others have values for which the jumps are wrong -/

def Cond.leaves : Cond → List Nat
  | .leaf i _ => [i]
  | .not c => c.leaves
  | .or a b => a.leaves ++ b.leaves
  | .and a b => a.leaves ++ b.leaves

/-- Expressions without effects, with given truth values. -/
def pureSem (ρ : Nat → Bool) : Sem Unit Bool where
  expr i _ s := .ok (ρ i) s
  truthy v := v
  void := false
  ofBool b := b
  wrap _ := true
  next _ _ s := .ok false s
  same _ _ _ s := .ok false s

def valB (ρ : Nat → Bool) : Cond → Bool
  | .leaf i _ => ρ i
  | .not c => !valB ρ c
  | .or a b => valB ρ a || valB ρ b
  | .and a b => valB ρ a && valB ρ b

def routeB (ρ : Nat → Bool) : Cond → Bool → Route
  | .leaf i _, op => if ρ i = op then .far else .fall
  | .not c, op => routeB ρ c (!op)
  | .or a b, op =>
    match routeB ρ a true with
    | .fall => routeB ρ b op
    | r => if op then r else r.swap
  | .and a b, op =>
    match routeB ρ a false with
    | .fall => routeB ρ b op
    | r => if op then r.swap else r

theorem evalC_pure (ρ : Nat → Bool) (env : List Bool) (c : Cond) (s : Unit) : evalC (pureSem ρ) env c s = .ok (valB ρ c) s := by
  induction c with
  | leaf i known => rfl
  | not c ih => simp [evalC, ih, valB]
  | or a b iha ihb => simp only [evalC, iha, ihb, valB]; cases valB ρ a <;> rfl
  | and a b iha ihb => simp only [evalC, iha, ihb, valB]; cases valB ρ a <;> rfl

theorem route_pure (ρ : Nat → Bool) (env : List Bool) (c : Cond) (op : Bool) (s : Unit) :
    route (pureSem ρ) env c op s = .ok (routeB ρ c op) s := by
  induction c generalizing op with
  | leaf i known => rfl
  | not c ih => simp [route, ih, routeB]
  | or a b iha ihb => simp only [route, iha, ihb, routeB]; cases routeB ρ a true <;> rfl
  | and a b iha ihb => simp only [route, iha, ihb, routeB]; cases routeB ρ a false <;> rfl

theorem valB_congr {ρ ρ' : Nat → Bool} (c : Cond) (h : ∀ i ∈ c.leaves, ρ i = ρ' i) : valB ρ c = valB ρ' c := by
  induction c with
  | leaf i known => exact h i (by simp [Cond.leaves])
  | not c ih => simp [valB, ih h]
  | or a b iha ihb =>
    simp only [Cond.leaves, List.mem_append] at h
    simp [valB, iha fun i hi => h i (.inl hi), ihb fun i hi => h i (.inr hi)]
  | and a b iha ihb =>
    simp only [Cond.leaves, List.mem_append] at h
    simp [valB, iha fun i hi => h i (.inl hi), ihb fun i hi => h i (.inr hi)]

theorem routeB_congr {ρ ρ' : Nat → Bool} (c : Cond) (op : Bool) (h : ∀ i ∈ c.leaves, ρ i = ρ' i) : routeB ρ c op = routeB ρ' c op := by
  induction c generalizing op with
  | leaf i known => simp [routeB, h i (by simp [Cond.leaves])]
  | not c ih => simp [routeB, ih (!op) h]
  | or a b iha ihb =>
    simp only [Cond.leaves, List.mem_append] at h
    simp only [routeB, iha true fun i hi => h i (.inl hi), ihb op fun i hi => h i (.inr hi)]
  | and a b iha ihb =>
    simp only [Cond.leaves, List.mem_append] at h
    simp only [routeB, iha false fun i hi => h i (.inl hi), ihb op fun i hi => h i (.inr hi)]

/-- Values of two conditions without common leaves can be chosen independently. -/
theorem glue {a b : Cond} (hd : ∀ i ∈ a.leaves, i ∉ b.leaves) (ρ ρ' : Nat → Bool) : ∃ τ : Nat → Bool,
    (valB τ a = valB ρ a ∧ ∀ op, routeB τ a op = routeB ρ a op) ∧ valB τ b = valB ρ' b ∧ ∀ op, routeB τ b op = routeB ρ' b op := by
  refine ⟨fun i => if i ∈ a.leaves then ρ i else ρ' i, ⟨valB_congr _ ?_, fun op => routeB_congr _ _ ?_⟩, valB_congr _ ?_,
    fun op => routeB_congr _ _ ?_⟩ <;> intro i hi
  · simp [hi]
  · simp [hi]
  · rw [if_neg fun h => hd i h hi]
  · rw [if_neg fun h => hd i h hi]

theorem Cond.Nodup.or {a b : Cond} (h : (a.leaves ++ b.leaves).Nodup) :
    a.leaves.Nodup ∧ b.leaves.Nodup ∧ ∀ i ∈ a.leaves, i ∉ b.leaves := by
  rw [List.nodup_append] at h
  exact ⟨h.1, h.2.1, fun i ha hb => h.2.2 i ha i hb rfl⟩

theorem exists_far_notfar (c : Cond) : c.leaves.Nodup → ∀ op,
    (∃ ρ, valB ρ c = op ∧ routeB ρ c op = .far) ∧ ∃ ρ, valB ρ c = (!op) ∧ routeB ρ c op ≠ .far := by
  induction c with
  | leaf i known =>
    intro _ op
    refine ⟨⟨fun _ => op, rfl, by simp [routeB]⟩, ⟨fun _ => !op, rfl, by simp [routeB]⟩⟩
  | not c ih =>
    intro hn op
    obtain ⟨⟨ρ, h1, h2⟩, ⟨ρ', h3, h4⟩⟩ := ih hn (!op)
    exact ⟨⟨ρ, by simp [valB, h1], h2⟩, ⟨ρ', by simp [valB, h3], h4⟩⟩
  | or a b iha ihb =>
    intro hn op
    obtain ⟨na, nb, hd⟩ := Cond.Nodup.or hn
    obtain ⟨⟨ρ1, h1, r1⟩, ⟨ρ2, h2, r2⟩⟩ := iha na true
    obtain ⟨⟨ρ3, h3, r3⟩, ⟨ρ4, h4, r4⟩⟩ := ihb nb op
    obtain ⟨τ, ⟨v1, t1⟩, v2, t2⟩ := glue hd ρ2 ρ3
    obtain ⟨τ', ⟨v1', t1'⟩, v2', t2'⟩ := glue hd ρ2 ρ4
    cases op
    · refine ⟨⟨τ, by simp [valB, v1, v2, h2, h3], ?_⟩, ⟨ρ1, by simp [valB, h1], ?_⟩⟩
      · simp only [routeB, t1, t2]
        cases h : routeB ρ2 a true <;> simp_all [Route.swap]
      · simp [routeB, r1, Route.swap]
    · refine ⟨⟨ρ1, by simp [valB, h1], ?_⟩, ⟨τ', by simp [valB, v1', v2', h2, h4], ?_⟩⟩
      · simp [routeB, r1]
      · simp only [routeB, t1', t2']
        cases h : routeB ρ2 a true <;> simp_all
  | and a b iha ihb =>
    intro hn op
    obtain ⟨na, nb, hd⟩ := Cond.Nodup.or hn
    obtain ⟨⟨ρ1, h1, r1⟩, ⟨ρ2, h2, r2⟩⟩ := iha na false
    obtain ⟨⟨ρ3, h3, r3⟩, ⟨ρ4, h4, r4⟩⟩ := ihb nb op
    obtain ⟨τ, ⟨v1, t1⟩, v2, t2⟩ := glue hd ρ2 ρ3
    obtain ⟨τ', ⟨v1', t1'⟩, v2', t2'⟩ := glue hd ρ2 ρ4
    cases op
    · refine ⟨⟨ρ1, by simp [valB, h1], ?_⟩, ⟨τ', by simp [valB, v1', v2', h2, h4], ?_⟩⟩
      · simp [routeB, r1]
      · simp only [routeB, t1', t2']
        cases h : routeB ρ2 a false <;> simp_all
    · refine ⟨⟨τ, by simp [valB, v1, v2, h2, h3], ?_⟩, ⟨ρ1, by simp [valB, h1], ?_⟩⟩
      · simp only [routeB, t1, t2]
        cases h : routeB ρ2 a false <;> simp_all [Route.swap]
      · simp [routeB, r1, Route.swap]

theorem exists_near (c : Cond) : c.leaves.Nodup → ∀ op, ¬ Mono op c → ∃ ρ, valB ρ c = (!op) ∧ routeB ρ c op = .near := by
  induction c with
  | leaf i known => intro _ op h; exact absurd trivial h
  | not c ih =>
    intro hn op h
    obtain ⟨ρ, h1, h2⟩ := ih hn (!op) h
    exact ⟨ρ, by simp [valB, h1], h2⟩
  | or a b iha ihb =>
    intro hn op h
    obtain ⟨na, nb, hd⟩ := Cond.Nodup.or hn
    cases op
    · obtain ⟨⟨ρ, h1, h2⟩, _⟩ := exists_far_notfar a na true
      exact ⟨ρ, by simp [valB, h1], by simp [routeB, h2, Route.swap]⟩
    · by_cases ha : Mono true a
      · have hb : ¬ Mono true b := fun hb => h ⟨rfl, ha, hb⟩
        obtain ⟨_, ⟨ρ, h1, h2⟩⟩ := exists_far_notfar a na true
        obtain ⟨ρ', h3, h4⟩ := ihb nb true hb
        obtain ⟨τ, ⟨v1, t1⟩, v2, t2⟩ := glue hd ρ ρ'
        refine ⟨τ, by simp [valB, v1, v2, h1, h3], ?_⟩
        simp only [routeB, t1, t2]
        cases h : routeB ρ a true <;> simp_all
      · obtain ⟨ρ, h1, h2⟩ := iha na true ha
        obtain ⟨_, ⟨ρ', h3, _⟩⟩ := exists_far_notfar b nb true
        obtain ⟨τ, ⟨v1, t1⟩, v2, t2⟩ := glue hd ρ ρ'
        exact ⟨τ, by simp [valB, v1, v2, h1, h3], by simp [routeB, t1, h2]⟩
  | and a b iha ihb =>
    intro hn op h
    obtain ⟨na, nb, hd⟩ := Cond.Nodup.or hn
    cases op
    · by_cases ha : Mono false a
      · have hb : ¬ Mono false b := fun hb => h ⟨rfl, ha, hb⟩
        obtain ⟨_, ⟨ρ, h1, h2⟩⟩ := exists_far_notfar a na false
        obtain ⟨ρ', h3, h4⟩ := ihb nb false hb
        obtain ⟨τ, ⟨v1, t1⟩, v2, t2⟩ := glue hd ρ ρ'
        refine ⟨τ, by simp [valB, v1, v2, h1, h3], ?_⟩
        simp only [routeB, t1, t2]
        cases h : routeB ρ a false <;> simp_all
      · obtain ⟨ρ, h1, h2⟩ := iha na false ha
        obtain ⟨_, ⟨ρ', h3, _⟩⟩ := exists_far_notfar b nb false
        obtain ⟨τ, ⟨v1, t1⟩, v2, t2⟩ := glue hd ρ ρ'
        exact ⟨τ, by simp [valB, v1, v2, h1, h3], by simp [routeB, t1, h2]⟩
    · obtain ⟨⟨ρ, h1, h2⟩, _⟩ := exists_far_notfar a na false
      exact ⟨ρ, by simp [valB, h1], by simp [routeB, h2, Route.swap]⟩

theorem exists_wrong (c : Cond) : c.leaves.Nodup → ¬ Straight c → ∀ op, ∃ ρ, ¬ (routeB ρ c op = .far ↔ valB ρ c = op) := by
  induction c with
  | leaf i known => intro _ h; exact absurd trivial h
  | not c ih =>
    intro hn h op
    obtain ⟨ρ, h1⟩ := ih hn h (!op)
    refine ⟨ρ, fun h2 => h1 (h2.trans ?_)⟩
    simp only [valB]; cases valB ρ c <;> cases op <;> simp
  | or a b iha ihb =>
    intro hn h op
    obtain ⟨na, nb, hd⟩ := Cond.Nodup.or hn
    by_cases ha : Mono true a
    · have hb : ¬ Straight b := fun hb => h ⟨ha, hb⟩
      obtain ⟨_, ⟨ρ, h1, h2⟩⟩ := exists_far_notfar a na true
      obtain ⟨ρ', h3⟩ := ihb nb hb op
      obtain ⟨τ, ⟨v1, t1⟩, v2, t2⟩ := glue hd ρ ρ'
      refine ⟨τ, ?_⟩
      have hf : routeB ρ a true = .fall := by
        have := route_mono (pureSem ρ) [] a true () ha
        rw [route_pure, evalC_pure, h1] at this
        simpa [want] using this
      simpa only [routeB, t1, t2, hf, valB, v1, v2, h1, Bool.not_true, Bool.false_or] using h3
    · obtain ⟨ρ, h1, h2⟩ := exists_near a na true ha
      obtain ⟨⟨ρ3, h3, _⟩, ⟨ρ4, h4, _⟩⟩ := exists_far_notfar b nb true
      obtain ⟨τ, ⟨v1, t1⟩, v2, t2⟩ := glue hd ρ ρ3
      refine ⟨τ, ?_⟩
      cases op <;> simp [routeB, t1, h2, valB, v1, v2, h1, h3, Route.swap]
  | and a b iha ihb =>
    intro hn h op
    obtain ⟨na, nb, hd⟩ := Cond.Nodup.or hn
    by_cases ha : Mono false a
    · have hb : ¬ Straight b := fun hb => h ⟨ha, hb⟩
      obtain ⟨_, ⟨ρ, h1, h2⟩⟩ := exists_far_notfar a na false
      obtain ⟨ρ', h3⟩ := ihb nb hb op
      obtain ⟨τ, ⟨v1, t1⟩, v2, t2⟩ := glue hd ρ ρ'
      refine ⟨τ, ?_⟩
      have hf : routeB ρ a false = .fall := by
        have := route_mono (pureSem ρ) [] a false () ha
        rw [route_pure, evalC_pure, h1] at this
        simpa [want] using this
      simpa only [routeB, t1, t2, hf, valB, v1, v2, h1, Bool.not_false, Bool.true_and] using h3
    · obtain ⟨ρ, h1, h2⟩ := exists_near a na false ha
      obtain ⟨_, ⟨ρ4, h4, _⟩⟩ := exists_far_notfar b nb true
      obtain ⟨τ, ⟨v1, t1⟩, v2, t2⟩ := glue hd ρ ρ4
      refine ⟨τ, ?_⟩
      cases op <;> simp [routeB, t1, h2, valB, v1, v2, h1, h4, Route.swap]

/-! ### `gen_cond_jump` -/

/-- The jump is made if the value is `op`. -/
def Jumps (S : Sem σ V) (P : Prog) (d : Nat) (c : Cfg σ V) (op : Bool) (F E : Nat) : Res σ V Bool → Prop
  | .ok b s => if b = op then ∃ k c', Arrive S P d c (k + 1) F s c' else ∃ k c', Arrive S P d c k E s c'
  | .exn v s => ∃ k c', Raises S P d c v s k c'

theorem Goes.jumps {S : Sem σ V} {P : Prog} {d : Nat} {c : Cfg σ V} {op : Bool} {F E : Nat} {r : Res σ V Bool} {g : Res σ V Route}
    (h : Goes S P d c F E E g) (hr : Right op r g) : Jumps S P d c op F E r := by
  rcases r with ⟨b, s⟩ | ⟨v, s⟩ <;> rcases g with ⟨g, s'⟩ | ⟨v', s'⟩ <;> simp only [Right] at hr
  · obtain ⟨rfl, hb⟩ := hr
    cases g
    · simpa [Jumps, hb.1 rfl, Goes] using h
    · have : b ≠ op := fun hb' => by simpa using hb.2 hb'
      obtain ⟨k, c', h⟩ := h
      simpa [Jumps, this] using ⟨k + 1, c', h⟩
    · have : b ≠ op := fun hb' => by simpa using hb.2 hb'
      simpa [Jumps, this, Goes] using h
  · obtain ⟨rfl, rfl⟩ := hr
    exact h

theorem genCond_spec (S : Sem σ V) (P : Prog) (x : Ctx) (henv : ∀ q ∈ x.env, q < x.d) (c : Cond) (hk : Known S c) (op : Bool) (st : St) :
    ∃ cs m J N, genCond x c op st =
        ({ st with code := st.code ++ cs, n := st.n + m, log := st.log ++ N.map fun e => (e, st.pc + cs.length) }, J) ∧
      (J ++ N).Perm (List.range' st.n m) ∧
      ∀ (F : Nat), (∀ e ∈ J, P.tgt e = some F) → (∀ e ∈ N, P.tgt e = some (st.pc + cs.length)) → st.code ++ cs <+: P.code →
        ∀ (cf : Cfg σ V), cf.pc = st.pc →
          Goes S P x.d cf F (st.pc + cs.length) (st.pc + cs.length) (route S (x.env.map cf.regs) c op cf.mem) := by
  obtain ⟨cs, m, J, N, h, hp, hs⟩ := genInner_spec S P x henv c hk op st [] []
  refine ⟨cs, m, J, N, ?_, hp, fun F hF hN hP cf hpc => hs F _ hF hN hP cf hpc⟩
  simp [genCond, h, St.setAll, St.pc]

end Verif.Ctl
