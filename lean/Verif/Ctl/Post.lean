import Verif.Ctl.Count

/-
What the machine does on the code of a statement, compared with the meaning of the statement.
-/
namespace Verif.Ctl

variable {σ V : Type}

/-- Where pending jumps of a statement lead to. -/
structure Tgts where
  pc  : Kind → Nat
  ret : Nat
  /-- Handlers of the `try` with a given register. -/
  hnd : Nat → Nat

def hndOf (K : Tgts) (h : Option Nat) : Option (Nat × Nat) := h.map fun r => (K.hnd r, r)

/-- The program has the code and the targets of the compiler's state. -/
structure Lk (P : Prog) (K : Tgts) (ts : List (Nat × Bool)) (st : St) : Prop where
  code : st.code <+: P.code
  log  : ∀ p ∈ st.log, P.tgt p.1 = some p.2
  ret  : ∀ e ∈ st.returns, P.tgt e = some K.ret
  kids : ∀ p ∈ st.kids, p.1 ∈ ts.map (·.1) → P.tgt p.2 = some (K.hnd p.1)

/-- Pending jumps get the targets. -/
def LkB (P : Prog) (K : Tgts) (w : Kind → Want) (st : St) : Prop := ∀ p ∈ st.breaks, w p.1 ≠ .no → P.tgt p.2 = some (K.pc p.1)

structure XOk (x : Ctx) : Prop where
  env   : ∀ q ∈ x.env, q < x.d
  tries : ∀ t ∈ x.tries, t.1 < x.d
  order : x.tries.Pairwise fun a b => b.1 < a.1
  last  : x.Ok

theorem Lk.of_grows' {P : Prog} {K : Tgts} {ts : List (Nat × Bool)} {d : Nat} {st st' : St} (h : Lk P K ts st') (hg : Grows' d st st')
    (ht : ∀ t ∈ ts, t.1 < d) : Lk P K ts st :=
  ⟨hg.code.trans h.code, fun p hp => h.log p (hg.log p hp), fun e he => h.ret e (hg.returns e he), fun p hp hm => by
    obtain ⟨t, h1, h2⟩ := List.mem_map.1 hm
    exact h.kids p (hg.kids p hp (h2 ▸ ht t h1)) hm⟩

theorem LkB.of_grows {P : Prog} {K : Tgts} {w : Kind → Want} {d : Nat} {st st' : St} (h : LkB P K w st') (hg : Grows d st st') :
    LkB P K w st := fun p hp hw => h p (hg.breaks p hp) hw

/-- `try` with deferred code around. -/
def Ctx.fin (x : Ctx) : Option Nat := (x.tries.find? (·.2)).map (·.1)

structure Lands (S : Sem σ V) (P : Prog) (d : Nat) (c : Cfg σ V) (k pc : Nat) (s : σ) (c' : Cfg σ V) : Prop where
  reach : Reach S P k c c'
  pc    : c'.pc = pc
  mem   : c'.mem = s
  regs  : Agree d c c'

/-- The machine does what the result of the statement is.  `g`: a lower bound for the number of steps, if there is no result. -/
def Post (S : Sem σ V) (P : Prog) (K : Tgts) (w : Kind → Want) (d : Nat) (fin : Option Nat) (g : Nat) (cf : Cfg σ V) (E : Nat)
    (B : List (Kind × Nat)) (R : List Nat) : Option (Out V × σ) → Prop
  | none => ∃ k c', Reach S P k cf c' ∧ g ≤ k + 1
  | some (.normal, s) => ∃ k c', Arrive S P d cf k E s c'
  | some (.jump kd, s) => (∃ e, (kd, e) ∈ B) ∧ ∃ k c', Lands S P d cf (k + 1) (K.pc kd) s c' ∧
      match w kd with
      | .no => False
      | .any => True
      | .at h => c'.hnd = hndOf K h
  | some (.thr v, s) => ∃ u k c', S.wrap u = v ∧ Raises S P d cf u s k c'
  | some (.ret v, s) =>
    match fin with
    | some r => (∃ e, e ∈ R) ∧ ∃ k c', Lands S P r cf k K.ret s c' ∧ c'.regs r = v
    | none => ∃ k c', Reach S P k cf c' ∧ step S P c' = .ret v s

variable {S : Sem σ V} {P : Prog} {K : Tgts} {w : Kind → Want} {d : Nat} {fin : Option Nat} {g : Nat} {cf : Cfg σ V} {E : Nat}
  {B : List (Kind × Nat)} {R : List Nat}

theorem Arrive.mono {d' k pc : Nat} {s : σ} {c' : Cfg σ V} (h : Arrive S P d' cf k pc s c') (hd : d ≤ d') : Arrive S P d cf k pc s c' :=
  ⟨h.reach, h.pc, h.mem, h.hnd, h.regs.mono hd⟩

theorem Arrive.lands {k pc : Nat} {s : σ} {c' : Cfg σ V} (h : Arrive S P d cf k pc s c') : Lands S P d cf k pc s c' :=
  ⟨h.reach, h.pc, h.mem, h.regs⟩

theorem Raises.mono {d' k : Nat} {v : V} {s : σ} {c' : Cfg σ V} (h : Raises S P d' cf v s k c') (hd : d ≤ d') : Raises S P d cf v s k c' :=
  ⟨h.reach, h.step, h.hnd, h.regs.mono hd⟩

/-- Steps before. -/
theorem Post.after {j p : Nat} {s : σ} {cf' : Cfg σ V} {g' : Nat} {r : Option (Out V × σ)} (h : Arrive S P d cf j p s cf')
    (hf : ∀ r, fin = some r → r ≤ d) (hg : g' ≤ g + j) (hp : Post S P K w d fin g cf' E B R r) : Post S P K w d fin g' cf E B R r := by
  match r, hp with
  | none, ⟨k, c', h1, h2⟩ => exact ⟨j + k, c', h.reach.trans h1, by omega⟩
  | some (.normal, s), ⟨k, c', h1⟩ => exact ⟨_, c', h.trans h1⟩
  | some (.jump kd, s), ⟨he, k, c', h1, h2⟩ =>
    exact ⟨he, j + k, c', ⟨h.reach.trans h1.reach, h1.pc, h1.mem, h.regs.trans h1.regs⟩, h2⟩
  | some (.thr v, s), ⟨u, k, c', hu, h1⟩ => exact ⟨u, _, c', hu, h1.after h⟩
  | some (.ret v, s), hp =>
    cases hfin : fin with
    | none =>
      subst hfin
      obtain ⟨k, c', h1, h2⟩ := hp
      exact ⟨_, c', h.reach.trans h1, h2⟩
    | some r =>
      have hd := hf r hfin
      subst hfin
      obtain ⟨he, k, c', h1, h2⟩ := hp
      exact ⟨he, _, c', ⟨h.reach.trans h1.reach, h1.pc, h1.mem, (h.regs.mono hd).trans h1.regs⟩, h2⟩

/-- Fewer registers, more pending jumps, a smaller bound. -/
theorem Post.mono {d' g' : Nat} {B' : List (Kind × Nat)} {R' : List Nat} {r : Option (Out V × σ)} (hp : Post S P K w d' fin g' cf E B' R' r)
    (hd : d ≤ d') (hg : g ≤ g') (hB : ∀ p ∈ B', p ∈ B) (hR : ∀ p ∈ R', p ∈ R) : Post S P K w d fin g cf E B R r := by
  match r, hp with
  | none, ⟨k, c', h1, h2⟩ => exact ⟨k, c', h1, by omega⟩
  | some (.normal, s), ⟨k, c', h1⟩ => exact ⟨_, c', h1.mono hd⟩
  | some (.jump kd, s), ⟨⟨e, he⟩, k, c', h1, h2⟩ => exact ⟨⟨e, hB _ he⟩, k, c', ⟨h1.reach, h1.pc, h1.mem, h1.regs.mono hd⟩, h2⟩
  | some (.thr v, s), ⟨u, k, c', hu, h1⟩ => exact ⟨u, _, c', hu, h1.mono hd⟩
  | some (.ret v, s), hp =>
    cases fin with
    | none => exact hp
    | some r =>
      obtain ⟨⟨e, he⟩, k, c', h1, h2⟩ := hp
      exact ⟨⟨e, hR _ he⟩, k, c', h1, h2⟩

/-- Another statement follows. -/
theorem Post.seq {E' : Nat} {B' : List (Kind × Nat)} {R' : List Nat} {r r' : Option (Out V × σ)} (hp : Post S P K w d fin g cf E B R r)
    (hB : ∀ p ∈ B, p ∈ B') (hR : ∀ p ∈ R, p ∈ R') (hne : (∀ s, r ≠ some (.normal, s)) → r' = r)
    (hn : ∀ s, r = some (.normal, s) → ∀ j cf', Arrive S P d cf j E s cf' → Post S P K w d fin g cf E' B' R' r') :
    Post S P K w d fin g cf E' B' R' r' := by
  match r, hp with
  | some (.normal, s), ⟨k, c', h1⟩ => exact hn s rfl k c' h1
  | none, hp => rw [hne (by simp)]; exact hp
  | some (.jump kd, s), ⟨⟨e, he⟩, h⟩ => rw [hne (by simp)]; exact ⟨⟨e, hB _ he⟩, h⟩
  | some (.thr v, s), hp => rw [hne (by simp)]; exact hp
  | some (.ret v, s), hp =>
    rw [hne (by simp)]
    cases fin with
    | none => exact hp
    | some r =>
      obtain ⟨⟨e, he⟩, h⟩ := hp
      exact ⟨⟨e, hR _ he⟩, h⟩

theorem Post.normal {k : Nat} {s : σ} {c' : Cfg σ V} (h : Arrive S P d cf k E s c') : Post S P K w d fin g cf E B R (some (.normal, s)) := ⟨k, c', h⟩

theorem Post.thr {k : Nat} {s : σ} {v : V} {c' : Cfg σ V} (h : Raises S P d cf v s k c') :
    Post S P K w d fin g cf E B R (some (.thr (S.wrap v), s)) := ⟨v, k, c', rfl, h⟩

/-! ### Single instructions -/

theorem Lk.at {ts : List (Nat × Bool)} {st : St} {i : Instr} (h : Lk P K ts (st.emit i)) (hc : cf.pc = st.pc) : P.code[cf.pc]? = some i :=
  getElem?_of_prefix h.code (by simp [hc, St.pc, St.emit])

theorem Lk.atJ {ts : List (Nat × Bool)} {st : St} {i : Nat → Instr} (h : Lk P K ts (st.emitJ i)) (hc : cf.pc = st.pc) :
    P.code[cf.pc]? = some (i st.n) := getElem?_of_prefix h.code (by simp [hc, St.pc, St.emitJ])

theorem agree_upd {d r : Nat} {p : Nat} {h : Option (Nat × Nat)} {s : σ} {v : V} (hr : d ≤ r) :
    Agree d cf ⟨p, upd cf.regs r v, h, s⟩ := fun q hq => by simp [upd, Nat.ne_of_lt (Nat.lt_of_lt_of_le hq hr)]

/-- An expression, with its value in register `r`. -/
theorem run_eval {i r : Nat} {env : List Nat} (h : P.code[cf.pc]? = some (.eval i r env)) :
    match S.expr i (env.map cf.regs) cf.mem with
    | .ok v s => Arrive S P r cf 1 (cf.pc + 1) s ⟨cf.pc + 1, upd cf.regs r v, cf.hnd, s⟩
    | .exn v s => ∀ d, Raises S P d cf v s 0 cf := by
  split
  · rename_i v s hv
    exact ⟨Reach.one (by simp [step, h, hv]), rfl, rfl, rfl, agree_upd (Nat.le_refl _)⟩
  · rename_i v s hv
    exact fun d => ⟨.refl _, by simp [step, h, hv], rfl, .refl _ _⟩

theorem run_jmp {e t : Nat} (h : P.code[cf.pc]? = some (.jmp e)) (ht : P.tgt e = some t) (d : Nat) :
    Arrive S P d cf 1 t cf.mem { cf with pc := t } :=
  ⟨Reach.one (by simp [step, h, goto, ht]), rfl, rfl, rfl, fun _ _ => rfl⟩

theorem run_throw {r : Nat} (h : P.code[cf.pc]? = some (.throw r)) (d : Nat) : Raises S P d cf (cf.regs r) cf.mem 0 cf :=
  ⟨.refl _, by simp [step, h], rfl, .refl _ _⟩

/-- `restore_catch` -/
theorem run_restore {ts : List (Nat × Bool)} {st : St} {h : Option Nat} (hl : Lk P K ts (st.restoreCatch h)) (hc : cf.pc = st.pc)
    (ht : ∀ r, h = some r → r ∈ ts.map (·.1)) :
    step S P cf = .run { cf with pc := (st.restoreCatch h).pc, hnd := hndOf K h } := by
  cases h with
  | none =>
    have h0 : P.code[cf.pc]? = some .cancel := getElem?_of_prefix hl.code (by simp [hc, St.pc, St.restoreCatch, St.emit])
    unfold step
    rw [h0]
    simp [hndOf, St.pc, St.restoreCatch, St.emit, hc]
  | some r =>
    have h0 : P.code[cf.pc]? = some (.catch r st.n) := getElem?_of_prefix hl.code (by simp [hc, St.pc, St.restoreCatch, St.emitJ])
    have h1 : P.tgt st.n = some (K.hnd r) := hl.kids (r, st.n) (by simp [St.restoreCatch, St.emitJ]) (ht r rfl)
    unfold step
    rw [h0]
    simp [h1, hndOf, St.pc, St.restoreCatch, St.emitJ, hc]

/-! ### Conditions -/

theorem cond_sim {ts : List (Nat × Bool)} {x : Ctx} (hx : ∀ q ∈ x.env, q < x.d) {c : Cond} (hk : Known S c) (hs : Straight c) {op : Bool}
    {st : St} (hl : Lk P K ts (genCond x c op st).1) {F : Nat} (hF : ∀ e ∈ (genCond x c op st).2, P.tgt e = some F) (hc : cf.pc = st.pc) :
    Jumps S P x.d cf op F (genCond x c op st).1.pc (evalC S (x.env.map cf.regs) c cf.mem) := by
  obtain ⟨cs, m, J, N, h, -, hsp⟩ := genCond_spec S P x hx c hk op st
  rw [h] at hl hF ⊢
  have hg := hsp F hF (fun e he => hl.log (e, st.pc + cs.length) (by simp [he])) hl.code cf hc
  have : (⟨st.code ++ cs, st.n + m, st.log ++ N.map fun e => (e, st.pc + cs.length), st.breaks, st.returns, st.kids⟩ : St).pc = st.pc + cs.length := by
    simp [St.pc]
  rw [this]
  exact hg.jumps (route_right S _ c op cf.mem hs)

/-! ### Loops -/

/-- The machine is at `pc`, with the handler `h` and values `ev` of variables of `catch` clauses. -/
structure At (env : List Nat) (ev : List V) (h : Option (Nat × Nat)) (pc : Nat) (cf : Cfg σ V) : Prop where
  pc  : cf.pc = pc
  hnd : cf.hnd = h
  env : env.map cf.regs = ev

theorem At.arrive {env : List Nat} {ev : List V} {h : Option (Nat × Nat)} {p k q : Nat} {s : σ} {c' : Cfg σ V} (ha : At env ev h p cf)
    (he : ∀ q ∈ env, q < d) (hr : Arrive S P d cf k q s c') : At env ev h q c' :=
  ⟨hr.pc, hr.hnd.trans ha.hnd, (hr.regs.map he).trans ha.env⟩

/-- Targets of pending jumps in the body of a loop. -/
def Tgts.loop (K : Tgts) (brk cont : Nat) : Tgts :=
  { K with pc := fun k => match k with | .brk => brk | .cont => cont | .fall => K.pc .fall }

theorem loopW_sim {env : List Nat} {ev : List V} (he : ∀ q ∈ env, q < d) (hf : ∀ r, fin = some r → r ≤ d) {top : Option Nat}
    {cond : σ → Res σ V Bool} {body : σ → Option (Out V × σ)} {start pb bottom pe : Nat} {n : Nat} {B' : List (Kind × Nat)} {R' : List Nat}
    (hB : ∀ p ∈ B', p.1 = .fall → p ∈ B) (hR : ∀ e ∈ R', e ∈ R)
    (h1 : ∀ cf : Cfg σ V, At env ev (hndOf K top) start cf → Jumps S P d cf false pe pb (cond cf.mem))
    (h2 : ∀ cf : Cfg σ V, At env ev (hndOf K top) bottom cf → Jumps S P d cf true pb pe (cond cf.mem))
    (h3 : ∀ cf : Cfg σ V, At env ev (hndOf K top) pb cf → Post S P (K.loop pe start) (loopWant w top) d fin n cf bottom B' R' (body cf.mem)) :
    ∀ m, m ≤ n → (∀ cf : Cfg σ V, At env ev (hndOf K top) start cf → Post S P K w d fin m cf pe B R (loopW S cond body m cf.mem)) ∧
      (∀ cf : Cfg σ V, At env ev (hndOf K top) bottom cf → Post S P K w d fin (m + 1) cf pe B R (loopW S cond body m cf.mem)) := by
  intro m
  induction m with
  | zero => exact fun _ => ⟨fun cf _ => ⟨0, cf, .refl _, by omega⟩, fun cf _ => ⟨0, cf, .refl _, by omega⟩⟩
  | succ m ih =>
    intro hm
    obtain ⟨iA, iB⟩ := ih (by omega)
    -- one pass through the body
    have hC : ∀ cf : Cfg σ V, At env ev (hndOf K top) pb cf → Post S P K w d fin (m + 1) cf pe B R (match body cf.mem with
        | none => none
        | some (.normal, s) => loopW S cond body m s
        | some (.jump .cont, s) => loopW S cond body m s
        | some (.jump .brk, s) => some (.normal, s)
        | some (o, s) => some (o, s)) := by
      intro cf ha
      have hb := h3 cf ha
      rcases hr : body cf.mem with _ | ⟨_ | (_ | _ | _) | v | v, s⟩ <;> rw [hr] at hb <;> simp only
      · obtain ⟨k, c', hk, hg⟩ := hb
        exact ⟨k, c', hk, by omega⟩
      · obtain ⟨k, c', h⟩ := hb
        have := iB c' (ha.arrive he h)
        rw [h.mem] at this
        exact this.after h hf (by omega)
      · obtain ⟨-, k, c', h, hh⟩ := hb
        exact ⟨_, c', ⟨h.reach, h.pc, h.mem, (show c'.hnd = hndOf K top from hh).trans ha.hnd.symm, h.regs⟩⟩
      · obtain ⟨-, k, c', h, hh⟩ := hb
        have h : Arrive S P d cf (k + 1) start s c' := ⟨h.reach, h.pc, h.mem, (show c'.hnd = hndOf K top from hh).trans ha.hnd.symm, h.regs⟩
        have := iA c' (ha.arrive he h)
        rw [h.mem] at this
        exact this.after h hf (by omega)
      · obtain ⟨⟨e, he'⟩, hb⟩ := hb
        exact ⟨⟨e, hB _ he' rfl⟩, hb⟩
      · cases fin with
        | none => exact hb
        | some r =>
          obtain ⟨⟨e, he'⟩, hb⟩ := hb
          exact ⟨⟨e, hR _ he'⟩, hb⟩
      · exact hb
    refine ⟨fun cf ha => ?_, fun cf ha => ?_⟩
    · have hj := h1 cf ha
      rw [loopW]
      rcases hr : cond cf.mem with ⟨_ | _, s⟩ | ⟨v, s⟩ <;> rw [hr] at hj <;> simp only
      · obtain ⟨k, c', h⟩ := hj
        exact .normal h
      · obtain ⟨k, c', h⟩ := hj
        have := hC c' (ha.arrive he h)
        rw [h.mem] at this
        exact this.after h hf (by omega)
      · obtain ⟨k, c', h⟩ := hj
        exact .thr h
    · have hj := h2 cf ha
      rw [loopW]
      rcases hr : cond cf.mem with ⟨_ | _, s⟩ | ⟨v, s⟩ <;> rw [hr] at hj <;> simp only
      · obtain ⟨k, c', h⟩ := hj
        exact .normal h
      · obtain ⟨k, c', h⟩ := hj
        have := hC c' (ha.arrive he h)
        rw [h.mem] at this
        exact this.after h hf (by omega)
      · obtain ⟨k, c', h⟩ := hj
        exact .thr h

theorem loopR_sim {env : List Nat} {ev : List V} (he : ∀ q ∈ env, q < d) (hf : ∀ r, fin = some r → r ≤ d) {top : Option Nat}
    {cond : σ → Res σ V Bool} {body : σ → Option (Out V × σ)} {start bottom pe : Nat} {n : Nat} {B' : List (Kind × Nat)} {R' : List Nat}
    (hB : ∀ p ∈ B', p.1 = .fall → p ∈ B) (hR : ∀ e ∈ R', e ∈ R)
    (h2 : ∀ cf : Cfg σ V, At env ev (hndOf K top) bottom cf → Jumps S P d cf true start pe (cond cf.mem))
    (h3 : ∀ cf : Cfg σ V, At env ev (hndOf K top) start cf → Post S P (K.loop pe bottom) (loopWant w top) d fin n cf bottom B' R' (body cf.mem)) :
    ∀ m, m ≤ n → ∀ cf : Cfg σ V, At env ev (hndOf K top) start cf → Post S P K w d fin m cf pe B R (loopR S cond body m cf.mem) := by
  intro m
  induction m with
  | zero => exact fun _ cf _ => ⟨0, cf, .refl _, by omega⟩
  | succ m ih =>
    intro hm
    have iA := ih (by omega)
    have hT : ∀ cf : Cfg σ V, At env ev (hndOf K top) bottom cf → Post S P K w d fin (m + 1) cf pe B R (match cond cf.mem with
        | .exn v s => some (.thr (S.wrap v), s)
        | .ok false s => some (.normal, s)
        | .ok true s => loopR S cond body m s) := by
      intro cf ha
      have hj := h2 cf ha
      rcases hr : cond cf.mem with ⟨_ | _, s⟩ | ⟨v, s⟩ <;> rw [hr] at hj <;> simp only
      · obtain ⟨k, c', h⟩ := hj
        exact .normal h
      · obtain ⟨k, c', h⟩ := hj
        have := iA c' (ha.arrive he h)
        rw [h.mem] at this
        exact this.after h hf (by omega)
      · obtain ⟨k, c', h⟩ := hj
        exact .thr h
    intro cf ha
    have hb := h3 cf ha
    rw [loopR]
    rcases hr : body cf.mem with _ | ⟨_ | (_ | _ | _) | v | v, s⟩ <;> rw [hr] at hb <;> simp only
    · obtain ⟨k, c', hk, hg⟩ := hb
      exact ⟨k, c', hk, by omega⟩
    · obtain ⟨k, c', h⟩ := hb
      have := hT c' (ha.arrive he h)
      rw [h.mem] at this
      exact this.after h hf (by omega)
    · obtain ⟨-, k, c', h, hh⟩ := hb
      exact ⟨_, c', ⟨h.reach, h.pc, h.mem, (show c'.hnd = hndOf K top from hh).trans ha.hnd.symm, h.regs⟩⟩
    · obtain ⟨-, k, c', h, hh⟩ := hb
      have h : Arrive S P d cf (k + 1) bottom s c' := ⟨h.reach, h.pc, h.mem, (show c'.hnd = hndOf K top from hh).trans ha.hnd.symm, h.regs⟩
      have := hT c' (ha.arrive he h)
      rw [h.mem] at this
      exact this.after h hf (by omega)
    · obtain ⟨⟨e, he'⟩, hb⟩ := hb
      exact ⟨⟨e, hB _ he' rfl⟩, hb⟩
    · cases fin with
      | none => exact hb
      | some r =>
        obtain ⟨⟨e, he'⟩, hb⟩ := hb
        exact ⟨⟨e, hR _ he'⟩, hb⟩
    · exact hb

end Verif.Ctl
