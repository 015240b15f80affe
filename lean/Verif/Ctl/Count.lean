import Verif.Ctl.Grow

/-
Every jump entry is in exactly one place: it has a target, or it is in one of the lists of pending jumps, or in a local variable of the
compiler.  So each entry is given a target exactly once.
-/
namespace Verif.Ctl

/-! ### Where jumps are allowed -/

def loopAllow (a : Kind → Bool) : Kind → Bool
  | .brk => true
  | .cont => true
  | .fall => a .fall

def caseAllow (a : Kind → Bool) (last : Bool) : Kind → Bool
  | .brk => true
  | .cont => a .cont
  | .fall => !last

mutual
/-- `break` and `continue` are in a loop (or `break` in a `switch`), `fallthrough` is in a case which is not the last one: what the parser
checks (core/kos_parser.c, `break_stmt`, `continue_stmt`, `fallthrough_stmt`, `switch_stmt`). -/
def Placed (a : Kind → Bool) : Stmt → Prop
  | .skip => True
  | .act _ => True
  | .seq s t => Placed a s ∧ Placed a t
  | .ite _ t => Placed a t
  | .itee _ t e => Placed a t ∧ Placed a e
  | .while _ b => Placed (loopAllow a) b
  | .repeat b _ => Placed (loopAllow a) b
  | .forIn _ _ b => Placed (loopAllow a) b
  | .switch _ cs => PlacedCases a cs
  | .jump k => a k = true
  | .ret _ => True
  | .throw _ => True
  | .assert _ _ => True
  | .tryCatch b h => Placed a b ∧ Placed a h
  | .tryDefer b f => Placed a b ∧ Placed a f

def PlacedCases (a : Kind → Bool) : Cases → Prop
  | .nil => True
  | .cons _ b _ rest => Placed (caseAllow a rest.isNil) b ∧ PlacedCases a rest
end

/-! ### New pending jumps -/

/-- New pending jumps are of kinds which are allowed. -/
def BrOk (a : Kind → Bool) (st st' : St) : Prop := ∀ p ∈ st'.breaks, p ∈ st.breaks ∨ a p.1 = true

theorem BrOk.refl (a : Kind → Bool) (st : St) : BrOk a st st := fun _ h => .inl h

theorem BrOk.trans {a : Kind → Bool} {x y z : St} (h : BrOk a x y) (h' : BrOk a y z) : BrOk a x z := fun p hp =>
  (h' p hp).elim (h p) .inr

theorem BrOk.same {a : Kind → Bool} {st st' : St} (h : st'.breaks = st.breaks) : BrOk a st st' := fun _ hp => .inl (h ▸ hp)

theorem BrOk.mono {a b : Kind → Bool} {st st' : St} (h : BrOk a st st') (hab : ∀ k, a k = true → b k = true) : BrOk b st st' :=
  fun p hp => (h p hp).imp_right (hab _)

theorem restoreCatch_breaks (st : St) (top : Option Nat) : (st.restoreCatch top).breaks = st.breaks := by cases top <;> rfl

theorem genReturn_breaks (x : Ctx) (r : Nat) (st : St) : (genReturn x r st).breaks = st.breaks := by
  unfold genReturn
  split
  · simp only; split <;> rfl
  · rfl

theorem deferCopy_brOk (a : Kind → Bool) (top : Option Nat) (f : St → St) (hf : ∀ st, BrOk a st (f st)) (tryB : List (Kind × Nat))
    (hB : ∀ p ∈ tryB, a p.1 = true) (k : Kind) (st : St) : BrOk a st (deferCopy top f tryB k st) := by
  unfold deferCopy
  simp only
  split
  · exact .refl _ _
  · rename_i hne
    have hk : a k = true := by
      rcases hes : List.map (·.2) (List.filter (fun x => x.1 == k) tryB) with _ | ⟨e, es⟩
      · exact absurd hes hne
      · have : e ∈ List.map (·.2) (List.filter (fun x => x.1 == k) tryB) := by rw [hes]; simp
        simp only [List.mem_map, List.mem_filter, beq_iff_eq] at this
        obtain ⟨p, ⟨hp, rfl⟩, -⟩ := this
        exact hB p hp
    intro p hp
    rcases List.mem_cons.1 hp with rfl | hp
    · exact .inr hk
    · rcases hf _ p hp with h | h
      · rw [restoreCatch_breaks] at h; exact .inl h
      · exact .inr h

theorem deferReturn_brOk (a : Kind → Bool) (x : Ctx) (r : Nat) (f : St → St) (hf : ∀ st, BrOk a st (f st)) (tryR : List Nat) (st : St) :
    BrOk a st (deferReturn x r f tryR st) := by
  unfold deferReturn
  split
  · exact .refl _ _
  · exact BrOk.trans (.same (by simp [St.setAll, restoreCatch_breaks])) ((hf _).trans (.same (genReturn_breaks _ _ _)))

theorem mem_finishBC_loop {st : St} {c : Nat} {old : List (Kind × Nat)} {p : Kind × Nat} (h : p ∈ (st.finishBC (some c) old).breaks) :
    p ∈ old ∨ (p ∈ st.breaks ∧ p.1 = .fall) := by
  obtain ⟨k, e⟩ := p
  simp only [St.finishBC, List.mem_append, List.mem_filter] at h
  rcases h with ⟨h1, h2⟩ | h
  · cases k <;> simp [kept] at h2
    exact .inr ⟨h1, rfl⟩
  · exact .inl h

theorem mem_finishBC_switch {st : St} {old : List (Kind × Nat)} {p : Kind × Nat} (h : p ∈ (st.finishBC none old).breaks) :
    p ∈ old ∨ (p ∈ st.breaks ∧ p.1 = .cont) := by
  obtain ⟨k, e⟩ := p
  simp only [St.finishBC, List.mem_append, List.mem_filter] at h
  rcases h with ⟨h1, h2⟩ | h
  · cases k <;> simp [kept] at h2
    exact .inr ⟨h1, rfl⟩
  · exact .inl h

theorem brOk_loop {a : Kind → Bool} {st st' st0 : St} (c : Nat) (hn : st0.breaks = []) (h : BrOk (loopAllow a) st0 st') :
    BrOk a st (st'.finishBC (some c) st.breaks) := by
  intro p hp
  rcases mem_finishBC_loop hp with hp | ⟨hp, hk⟩
  · exact .inl hp
  · rcases h p hp with h | h
    · rw [hn] at h; cases h
    · rw [hk] at h ⊢; exact .inr h

theorem brOk_switch {a b : Kind → Bool} {st st' st0 : St} (hn : st0.breaks = []) (h : BrOk b st0 st') (hb : b .cont = a .cont) :
    BrOk a st (st'.finishBC none st.breaks) := by
  intro p hp
  rcases mem_finishBC_switch hp with hp | ⟨hp, hk⟩
  · exact .inl hp
  · rcases h p hp with h | h
    · rw [hn] at h; cases h
    · rw [hk] at h ⊢; rw [hb] at h; exact .inr h

/-- After all cases, no `fallthrough` is left. -/
def endAllow (a : Kind → Bool) : Kind → Bool := caseAllow a true

mutual
theorem comp_brOk : (s : Stmt) → (a : Kind → Bool) → Placed a s → (x : Ctx) → (st : St) → BrOk a st (comp x s st)
  | .skip, a, hp, x, st => .refl _ _
  | .act i, a, hp, x, st => .same rfl
  | .seq s t, a, hp, x, st => (comp_brOk s a hp.1 x st).trans (comp_brOk t a hp.2 x _)
  | .ite c t, a, hp, x, st =>
    (BrOk.same (genCond_grows x c false st).breaks).trans ((comp_brOk t a hp x _).trans (.same rfl))
  | .itee c t e, a, hp, x, st => by
    simp only [comp]
    refine BrOk.trans ?_ (.same rfl)
    refine BrOk.trans ?_ (comp_brOk e a hp.2 x _)
    refine BrOk.trans ?_ (.same rfl)
    exact (BrOk.same (genCond_grows x c false st).breaks).trans (comp_brOk t a hp.1 x _)
  | .while c b, a, hp, x, st => by
    simp only [comp]
    split
    · exact .refl _ _
    · refine brOk_loop _ (st0 := { st with breaks := [] }) rfl ?_
      exact (BrOk.same (genCond_grows x.inLoop c false _).breaks).trans ((comp_brOk b _ hp x.inLoop _).trans
        ((BrOk.same (genCond_grows x.inLoop c true _).breaks).trans (.same rfl)))
  | .repeat b c, a, hp, x, st => by
    simp only [comp]
    split
    · exact brOk_loop _ (st0 := { st with breaks := [] }) rfl (comp_brOk b _ hp x.inLoop _)
    · exact brOk_loop _ (st0 := { st with breaks := [] }) rfl ((comp_brOk b _ hp x.inLoop _).trans
        ((BrOk.same (genCond_grows x.inLoop c true _).breaks).trans (.same rfl)))
  | .forIn i j b, a, hp, x, st => by
    simp only [comp]
    refine brOk_loop _ (st0 := { st with breaks := [] }) rfl ?_
    refine BrOk.trans ?_ (.same rfl)
    refine BrOk.trans ?_ (.same rfl)
    refine BrOk.trans ?_ (.same rfl)
    exact BrOk.trans (BrOk.same rfl) (comp_brOk b _ hp x.inLoop _)
  | .switch i .nil, a, hp, x, st => .same rfl
  | .switch i (.cons none b ft .nil), a, hp, x, st => by
    simp only [comp]
    exact brOk_switch (st0 := { st with breaks := [] }) rfl (BrOk.trans (.same rfl) (comp_brOk b _ hp.1 x _)) rfl
  | .switch i (.cons (some t) b ft rest), a, hp, x, st => by
    simp only [comp]
    refine brOk_switch (st0 := { st with breaks := [] }) rfl (b := endAllow a) ?_ rfl
    refine BrOk.trans ?_ (.same rfl)
    have h := fun es => (BrOk.trans (.same (genTests_grows (d := 0) x (.cons (some t) b ft rest) ({ st with breaks := [] }.emit (.eval i x.d x.env))).2)
      (BrOk.trans (.same rfl) (compCases_brOk (.cons (some t) b ft rest) a hp x es true ((genTests x (.cons (some t) b ft rest) ({ st with breaks := [] }.emit (.eval i x.d x.env))).1.emitJ .jmp)
        (by rw [show (St.emitJ _ _).breaks = _ from (genTests_grows (d := 0) x (.cons (some t) b ft rest) _).2]; simp [St.emit]))))
    split
    · exact (h _).trans (.same rfl)
    · exact h _
  | .switch i (.cons none b ft (.cons t b' ft' rest)), a, hp, x, st => by
    simp only [comp]
    refine brOk_switch (st0 := { st with breaks := [] }) rfl (b := endAllow a) ?_ rfl
    refine BrOk.trans ?_ (.same rfl)
    have h := fun es => (BrOk.trans (.same (genTests_grows (d := 0) x (.cons none b ft (.cons t b' ft' rest)) ({ st with breaks := [] }.emit (.eval i x.d x.env))).2)
      (BrOk.trans (.same rfl) (compCases_brOk (.cons none b ft (.cons t b' ft' rest)) a hp x es true ((genTests x (.cons none b ft (.cons t b' ft' rest)) ({ st with breaks := [] }.emit (.eval i x.d x.env))).1.emitJ .jmp)
        (by rw [show (St.emitJ _ _).breaks = _ from (genTests_grows (d := 0) x (.cons none b ft (.cons t b' ft' rest)) _).2]; simp [St.emit]))))
    split
    · exact (h _).trans (.same rfl)
    · exact h _
  | .jump k, a, hp, x, st => by
    intro p h
    simp only [comp, genJump, List.mem_cons] at h
    rcases h with rfl | h
    · exact .inr hp
    · left
      simp only [St.emitJ] at h
      split at h
      · exact h
      · exact h
  | .ret i, a, hp, x, st => .same (genReturn_breaks _ _ _)
  | .throw i, a, hp, x, st => .same rfl
  | .assert c k, a, hp, x, st => (BrOk.same (genCond_grows x c true st).breaks).trans (.same rfl)
  | .tryCatch b h, a, hp, x, st => by
    simp only [comp]
    intro p hq
    rcases List.mem_append.1 hq with hq | hq
    · have h1 := comp_brOk h a hp.2 { x with d := x.d + 1, env := x.d :: x.env } _ p hq
      rw [restoreCatch_breaks] at h1
      simp only [St.set, St.updateKids, St.emitJ, restoreCatch_breaks] at h1
      rcases h1 with h1 | h1
      · rcases comp_brOk b a hp.1 _ _ p h1 with h2 | h2
        · cases h2
        · exact .inr h2
      · exact .inr h1
    · exact .inl hq
  | .tryDefer b f, a, hp, x, st => by
    simp only [comp]
    have hf : ∀ st, BrOk a st (comp { x with d := x.d + 1 } f st) := fun st => comp_brOk f a hp.2 _ st
    have hB : ∀ p ∈ (comp { x with tries := (x.d, true) :: x.tries, d := x.d + 1 } b
        (({ st with breaks := [], returns := [] }.emit (.void x.d)).emitJ (.catch x.d))).breaks, a p.1 = true := by
      intro p hq
      rcases comp_brOk b a hp.1 _ _ p hq with h | h
      · cases h
      · exact h
    refine BrOk.trans ?_ (.same rfl)
    refine .trans ?_ (deferReturn_brOk a _ _ _ hf _ _)
    refine .trans ?_ (.trans (deferCopy_brOk a _ _ hf _ hB _ _) (.trans (deferCopy_brOk a _ _ hf _ hB _ _)
      (deferCopy_brOk a _ _ hf _ hB _ _)))
    refine BrOk.trans ?_ (.same rfl)
    refine .trans ?_ (hf _)
    exact .same (by simp [restoreCatch_breaks, St.set, St.updateKids])

theorem compCases_brOk : (cs : Cases) → (a : Kind → Bool) → PlacedCases a cs → (x : Ctx) → (es : List (Option Nat)) → (first : Bool) →
    (st : St) → (∀ p ∈ st.breaks, first = true ∨ cs.isNil = true → p.1 ≠ .fall) →
    BrOk (endAllow a) st (compCases x cs es first st).1
  | .nil, a, hp, x, es, first, st, hs => .refl _ _
  | .cons t b ft rest, a, hp, x, es, first, st, hs => by
    simp only [compCases]
    have h1 : ∀ p ∈ (if first then (st.setO es.head?.join)
        else (st.setO es.head?.join).finishFall).breaks, p ∈ st.breaks ∧ p.1 ≠ .fall := by
      have h0 : (st.setO es.head?.join).breaks = st.breaks := by cases es.head?.join <;> rfl
      intro p hq
      split at hq
      · rename_i hf; rw [h0] at hq; exact ⟨hq, hs p hq (.inl hf)⟩
      · simp only [St.finishFall, List.mem_filter, h0, bne_iff_ne] at hq; exact hq
    have h2 := comp_brOk b (caseAllow a rest.isNil) hp.1 x (if first then (st.setO es.head?.join)
        else (st.setO es.head?.join).finishFall)
    have key : ∀ st2 : St, st2.breaks = (comp x b (if first then (st.setO es.head?.join)
        else (st.setO es.head?.join).finishFall)).breaks → ∀ es',
        BrOk (endAllow a) st (compCases x rest es' false st2).1 := by
      intro st2 hst2 es' p hq
      have hq' := hq
      have h3 := compCases_brOk rest a hp.2 x es' false st2 (by
        intro p hp' hr
        rcases hr with hr | hr
        · cases hr
        · rw [hst2] at hp'
          rcases h2 p hp' with h | h
          · exact (h1 p h).2
          · intro hk; rw [hk, hr] at h; simp [caseAllow] at h)
      rcases h3 p hq with h | h
      · rw [hst2] at h
        rcases h2 p h with h | h
        · exact .inl (h1 p h).1
        · by_cases hk : p.1 = .fall
          · exact absurd hq' (compCases_nofall rest a hp.2 x es' false st2 (by
              intro p hp' hr
              rcases hr with hr | hr
              · cases hr
              · rw [hst2] at hp'
                rcases h2 p hp' with h | h
                · exact (h1 p h).2
                · intro hk; rw [hk, hr] at h; simp [caseAllow] at h) p · hk)
          · right
            revert h hk
            cases p.1 <;> simp [caseAllow, endAllow]
      · exact .inr h
    split
    · exact key _ rfl _
    · exact key (St.emitJ _ .jmp) rfl _

theorem compCases_nofall : (cs : Cases) → (a : Kind → Bool) → PlacedCases a cs → (x : Ctx) → (es : List (Option Nat)) → (first : Bool) →
    (st : St) → (∀ p ∈ st.breaks, first = true ∨ cs.isNil = true → p.1 ≠ .fall) →
    ∀ p ∈ (compCases x cs es first st).1.breaks, p.1 ≠ .fall
  | .nil, a, hp, x, es, first, st, hs => fun p h => hs p h (.inr rfl)
  | .cons t b ft rest, a, hp, x, es, first, st, hs => by
    simp only [compCases]
    have h1 : ∀ p ∈ (if first then (st.setO es.head?.join)
        else (st.setO es.head?.join).finishFall).breaks, p ∈ st.breaks ∧ p.1 ≠ .fall := by
      have h0 : (st.setO es.head?.join).breaks = st.breaks := by cases es.head?.join <;> rfl
      intro p hq
      split at hq
      · rename_i hf; rw [h0] at hq; exact ⟨hq, hs p hq (.inl hf)⟩
      · simp only [St.finishFall, List.mem_filter, h0, bne_iff_ne] at hq; exact hq
    have h2 := comp_brOk b (caseAllow a rest.isNil) hp.1 x (if first then (st.setO es.head?.join)
        else (st.setO es.head?.join).finishFall)
    have key : ∀ st2 : St, st2.breaks = (comp x b (if first then (st.setO es.head?.join)
        else (st.setO es.head?.join).finishFall)).breaks → ∀ es',
        ∀ p ∈ (compCases x rest es' false st2).1.breaks, p.1 ≠ .fall := by
      intro st2 hst2 es'
      refine compCases_nofall rest a hp.2 x es' false st2 ?_
      intro p hp' hr
      rcases hr with hr | hr
      · cases hr
      · rw [hst2] at hp'
        rcases h2 p hp' with h | h
        · exact (h1 p h).2
        · intro hk; rw [hk, hr] at h; simp [caseAllow] at h
    split
    · exact key _ rfl _
    · exact key (St.emitJ _ .jmp) rfl _
end

/-! ### New entries in the other lists -/

/-- New CATCH instructions which wait for a handler are for active `try` blocks. -/
def KidOk (ts : List (Nat × Bool)) (st st' : St) : Prop := ∀ p ∈ st'.kids, p ∈ st.kids ∨ p.1 ∈ ts.map (·.1)

/-- New pending returns are there only in blocks with deferred code. -/
def RetOk (ts : List (Nat × Bool)) (st st' : St) : Prop := ∀ e ∈ st'.returns, e ∈ st.returns ∨ ∃ t ∈ ts, t.2 = true

/-- `last` is an active `try`. -/
def Ctx.Ok (x : Ctx) : Prop := ∀ r, x.last = some r → r ∈ x.tries.map (·.1)

theorem Ctx.Ok.inLoop {x : Ctx} (h : x.Ok) : x.inLoop.Ok := by
  intro r hr
  simp only [Ctx.inLoop] at hr ⊢
  unfold Ctx.top at hr
  cases hx : x.tries with
  | nil => rw [hx] at hr; rw [← hx]; exact h r hr
  | cons t ts => rw [hx] at hr; simp at hr; simp [hr]

theorem Ctx.Ok.body {x : Ctx} (h : x.Ok) (r d : Nat) (b : Bool) : ({ x with tries := (r, b) :: x.tries, d := d } : Ctx).Ok := by
  intro q hq
  simp only [List.map_cons, List.mem_cons]
  exact .inr (h q hq)

/-- Both of the above. -/
def NewOk (ts : List (Nat × Bool)) (st st' : St) : Prop := KidOk ts st st' ∧ RetOk ts st st'

variable {ts : List (Nat × Bool)}

theorem NewOk.refl (st : St) : NewOk ts st st := ⟨fun _ h => .inl h, fun _ h => .inl h⟩

theorem NewOk.trans {a b c : St} (h : NewOk ts a b) (h' : NewOk ts b c) : NewOk ts a c :=
  ⟨fun p hp => (h'.1 p hp).elim (h.1 p) .inr, fun p hp => (h'.2 p hp).elim (h.2 p) .inr⟩

theorem NewOk.same {st st' : St} (hk : st'.kids = st.kids) (hr : st'.returns = st.returns) : NewOk ts st st' :=
  ⟨fun _ h => .inl (hk ▸ h), fun _ h => .inl (hr ▸ h)⟩

theorem newOk_restoreCatch (st : St) (top : Option Nat) (h : ∀ r, top = some r → r ∈ ts.map (·.1)) : NewOk ts st (st.restoreCatch top) := by
  cases top with
  | none => exact .refl _
  | some r =>
    refine ⟨fun p hp => ?_, fun _ h => .inl h⟩
    simp only [St.restoreCatch, List.mem_append, List.mem_singleton] at hp
    rcases hp with hp | rfl
    · exact .inl hp
    · exact .inr (h r rfl)

theorem top_mem (x : Ctx) : ∀ r, x.top = some r → r ∈ x.tries.map (·.1) := by
  intro r hr
  unfold Ctx.top at hr
  cases hx : x.tries with
  | nil => rw [hx] at hr; cases hr
  | cons t ts => rw [hx] at hr; simp at hr; simp [hr]

theorem newOk_genReturn (x : Ctx) (r : Nat) (st : St) : NewOk x.tries st (genReturn x r st) := by
  unfold genReturn
  split
  · rename_i q b hf
    have h1 := List.find?_some hf
    have h2 := List.mem_of_find?_eq_some hf
    refine ⟨fun p hp => .inl ?_, fun e he => ?_⟩
    · simp only [St.emitJ] at hp; split at hp <;> exact hp
    · exact .inr ⟨_, h2, h1⟩
  · exact .same rfl rfl

theorem newOk_genJump (x : Ctx) (hx : x.Ok) (k : Kind) (st : St) : NewOk x.tries st (genJump x k st) := by
  unfold genJump
  simp only
  split
  · rename_i r hr
    exact (newOk_restoreCatch st (some r) fun q hq => hx q (hr.trans hq)).trans (.same rfl rfl)
  · exact .same rfl rfl

theorem newOk_deferCopy (top : Option Nat) (htop : ∀ r, top = some r → r ∈ ts.map (·.1)) (f : St → St) (hf : ∀ st, NewOk ts st (f st))
    (tryB : List (Kind × Nat)) (k : Kind) (st : St) : NewOk ts st (deferCopy top f tryB k st) := by
  unfold deferCopy
  simp only
  split
  · exact .refl _
  · refine NewOk.trans ?_ (.same rfl rfl)
    refine NewOk.trans ?_ (hf _)
    refine NewOk.trans ?_ (newOk_restoreCatch _ _ htop)
    exact .same rfl rfl

theorem newOk_deferReturn (x : Ctx) (r : Nat) (f : St → St) (hf : ∀ st, NewOk x.tries st (f st)) (tryR : List Nat) (st : St) :
    NewOk x.tries st (deferReturn x r f tryR st) := by
  unfold deferReturn
  split
  · exact .refl _
  · refine NewOk.trans ?_ (newOk_genReturn x r _)
    refine NewOk.trans ?_ (hf _)
    refine NewOk.trans ?_ (newOk_restoreCatch _ _ (top_mem x))
    exact .same rfl rfl

theorem newOk_genTests (x : Ctx) (cs : Cases) : ∀ (st : St), NewOk ts st (genTests x cs st).1 := by
  match cs with
  | .nil => intro st; exact .refl _
  | .cons none _ _ rest => intro st; exact newOk_genTests x rest st
  | .cons (some i) _ _ rest =>
    intro st
    exact NewOk.trans (.same rfl rfl) (newOk_genTests x rest ((st.emit (.case i x.d (x.d + 1) x.env)).emitJ (.jcond true (x.d + 1))))

theorem newOk_genCond (x : Ctx) (c : Cond) (op : Bool) (st : St) : NewOk ts st (genCond x c op st).1 :=
  .same (genCond_grows x c op st).kids (genCond_grows x c op st).returns

mutual
theorem comp_newOk : (s : Stmt) → (x : Ctx) → x.Ok → (st : St) → NewOk x.tries st (comp x s st)
  | .skip, x, hx, st => .refl _
  | .act i, x, hx, st => .same rfl rfl
  | .seq s t, x, hx, st => (comp_newOk s x hx st).trans (comp_newOk t x hx _)
  | .ite c t, x, hx, st => by
    simp only [comp]
    exact NewOk.trans ((newOk_genCond x c false st).trans (comp_newOk t x hx _)) (.same rfl rfl)
  | .itee c t e, x, hx, st => by
    simp only [comp]
    refine NewOk.trans ?_ (.same rfl rfl)
    refine NewOk.trans ?_ (comp_newOk e x hx _)
    refine NewOk.trans ?_ (.same rfl rfl)
    exact (newOk_genCond x c false st).trans (comp_newOk t x hx _)
  | .while c b, x, hx, st => by
    simp only [comp]
    split
    · exact .refl _
    · refine NewOk.trans ?_ (.same rfl rfl)
      refine NewOk.trans ?_ (newOk_genCond x.inLoop c true _)
      refine NewOk.trans ?_ (comp_newOk b x.inLoop hx.inLoop _)
      exact NewOk.trans (.same rfl rfl) (newOk_genCond x.inLoop c false { st with breaks := [] })
  | .repeat b c, x, hx, st => by
    simp only [comp]
    split
    · exact NewOk.trans (b := { st with breaks := [] }) (.same rfl rfl) ((comp_newOk b x.inLoop hx.inLoop _).trans (.same rfl rfl))
    · refine NewOk.trans ?_ (.same rfl rfl)
      refine NewOk.trans ?_ (newOk_genCond x.inLoop c true _)
      exact NewOk.trans (b := { st with breaks := [] }) (.same rfl rfl) (comp_newOk b x.inLoop hx.inLoop _)
  | .forIn i j b, x, hx, st => by
    simp only [comp]
    refine NewOk.trans (b := comp x.inLoop b (({ st with breaks := [] }.emit (.eval i x.d x.env)).emitJ .jmp)) ?_ (.same rfl rfl)
    exact NewOk.trans (.same rfl rfl) (comp_newOk b x.inLoop hx.inLoop _)
  | .switch i .nil, x, hx, st => .same rfl rfl
  | .switch i (.cons none b ft .nil), x, hx, st => by
    simp only [comp]
    exact NewOk.trans (b := { st with breaks := [] }.emit (.eval i x.d x.env)) (.same rfl rfl)
      ((comp_newOk b x hx _).trans (.same rfl rfl))
  | .switch i (.cons (some t) b ft rest), x, hx, st => by
    simp only [comp]
    refine NewOk.trans ?_ (.same rfl rfl)
    have h := fun es => NewOk.trans (NewOk.trans (.same rfl rfl) (newOk_genTests x (.cons (some t) b ft rest)
        ({ st with breaks := [] }.emit (.eval i x.d x.env))))
      (NewOk.trans (.same rfl rfl) (compCases_newOk (.cons (some t) b ft rest) x hx es true
        ((genTests x (.cons (some t) b ft rest) ({ st with breaks := [] }.emit (.eval i x.d x.env))).1.emitJ .jmp)))
    split
    · exact NewOk.trans (h _) (.same rfl rfl)
    · exact h _
  | .switch i (.cons none b ft (.cons t b' ft' rest)), x, hx, st => by
    simp only [comp]
    refine NewOk.trans ?_ (.same rfl rfl)
    have h := fun es => NewOk.trans (NewOk.trans (.same rfl rfl) (newOk_genTests x (.cons none b ft (.cons t b' ft' rest))
        ({ st with breaks := [] }.emit (.eval i x.d x.env))))
      (NewOk.trans (.same rfl rfl) (compCases_newOk (.cons none b ft (.cons t b' ft' rest)) x hx es true
        ((genTests x (.cons none b ft (.cons t b' ft' rest)) ({ st with breaks := [] }.emit (.eval i x.d x.env))).1.emitJ .jmp)))
    split
    · exact NewOk.trans (h _) (.same rfl rfl)
    · exact h _
  | .jump k, x, hx, st => newOk_genJump x hx k st
  | .ret i, x, hx, st => NewOk.trans (.same rfl rfl) (newOk_genReturn x _ (st.emit _))
  | .throw i, x, hx, st => .same rfl rfl
  | .assert c k, x, hx, st => by
    simp only [comp]
    exact NewOk.trans (newOk_genCond x c true st) (.same rfl rfl)
  | .tryCatch b h, x, hx, st => by
    simp only [comp]
    refine NewOk.trans ?_ (.same rfl rfl)
    refine NewOk.trans ?_ (.same rfl rfl)
    refine NewOk.trans ?_ (comp_newOk h { x with d := x.d + 1, env := x.d :: x.env } hx _)
    refine NewOk.trans ?_ (newOk_restoreCatch _ _ (top_mem x))
    obtain ⟨hk, hr⟩ := comp_newOk b { x with tries := (x.d, false) :: x.tries, d := x.d + 1 } (hx.body _ _ _)
      ({ st with breaks := [] }.emitJ (.catch x.d))
    obtain ⟨hk', hr'⟩ := newOk_restoreCatch (comp { x with tries := (x.d, false) :: x.tries, d := x.d + 1 } b
      ({ st with breaks := [] }.emitJ (.catch x.d))) x.top (top_mem x)
    constructor
    · intro p hp
      simp only [St.set, St.updateKids, St.emitJ, List.mem_filter, bne_iff_ne] at hp
      rcases hk' p hp.1 with h | h
      · rcases hk p h with h | h
        · exact .inl h
        · simp only [List.map_cons, List.mem_cons] at h
          exact h.elim (fun h => absurd h hp.2) .inr
      · exact .inr h
    · intro e he
      simp only [St.set, St.updateKids, St.emitJ] at he
      rcases hr' e he with h | h
      · rcases hr e h with h | ⟨t, ht, h⟩
        · exact .inl h
        · rcases List.mem_cons.1 ht with rfl | ht
          · cases h
          · exact .inr ⟨t, ht, h⟩
      · exact .inr h
  | .tryDefer b f, x, hx, st => by
    simp only [comp]
    have hf : ∀ st, NewOk x.tries st (comp { x with d := x.d + 1 } f st) := fun st => comp_newOk f { x with d := x.d + 1 } hx st
    refine NewOk.trans ?_ (.same rfl rfl)
    refine NewOk.trans ?_ (newOk_deferReturn _ _ _ hf _ _)
    refine NewOk.trans ?_ (newOk_deferCopy _ (top_mem x) _ hf _ _ _)
    refine NewOk.trans ?_ (newOk_deferCopy _ (top_mem x) _ hf _ _ _)
    refine NewOk.trans ?_ (newOk_deferCopy _ (top_mem x) _ hf _ _ _)
    refine NewOk.trans ?_ (.same rfl rfl)
    refine NewOk.trans ?_ (hf _)
    refine NewOk.trans ?_ (newOk_restoreCatch _ _ (top_mem x))
    obtain ⟨hk, -⟩ := comp_newOk b { x with tries := (x.d, true) :: x.tries, d := x.d + 1 } (hx.body _ _ _)
      (({ st with breaks := [], returns := [] }.emit (.void x.d)).emitJ (.catch x.d))
    constructor
    · intro p hp
      simp only [St.set, St.updateKids, List.mem_filter, bne_iff_ne] at hp
      rcases hk p hp.1 with h | h
      · exact .inl h
      · simp only [List.map_cons, List.mem_cons] at h
        exact h.elim (fun h => absurd h hp.2) .inr
    · exact fun e he => .inl he

theorem compCases_newOk : (cs : Cases) → (x : Ctx) → x.Ok → (es : List (Option Nat)) → (first : Bool) → (st : St) →
    NewOk x.tries st (compCases x cs es first st).1
  | .nil, x, hx, es, first, st => .refl _
  | .cons t b ft rest, x, hx, es, first, st => by
    simp only [compCases]
    have h0 : ∀ st : St, NewOk x.tries st (st.setO es.head?.join) := by
      intro st; cases es.head?.join
      · exact .refl _
      · exact .same rfl rfl
    have h1 : ∀ st : St, NewOk x.tries st (if first then st else st.finishFall) := by
      intro st; split
      · exact .refl _
      · exact .same rfl rfl
    have h2 := ((h0 st).trans (h1 _)).trans (comp_newOk b x hx _)
    split
    · exact h2.trans (compCases_newOk rest x hx _ _ _)
    · exact (h2.trans (.same rfl rfl)).trans (compCases_newOk rest x hx _ _ _)
end

/-! ### Counting entries -/

/-- How often an entry is in the compiler's state and in the local variables `L`. -/
def tot (e : Nat) (a : St × List Nat) : Nat :=
  (a.1.log.map (·.1)).count e + (a.1.breaks.map (·.2)).count e + a.1.returns.count e + (a.1.kids.map (·.2)).count e + a.2.count e

def fresh (a b e : Nat) : Nat := if a ≤ e ∧ e < b then 1 else 0

/-- Each new entry is in one place, the others are in as many as before. -/
structure Bal (a b : St × List Nat) : Prop where
  n : a.1.n ≤ b.1.n
  tot : ∀ e, tot e b = tot e a + fresh a.1.n b.1.n e

theorem Bal.refl (a : St × List Nat) : Bal a a := ⟨Nat.le_refl _, fun e => by
  have : ¬ (a.1.n ≤ e ∧ e < a.1.n) := by omega
  simp [fresh, this]⟩

theorem Bal.trans {a b c : St × List Nat} (h : Bal a b) (h' : Bal b c) : Bal a c := by
  refine ⟨Nat.le_trans h.n h'.n, fun e => ?_⟩
  have := h.n; have := h'.n
  rw [h'.tot e, h.tot e]
  simp only [fresh]
  repeat' split
  all_goals omega

/-- The same number of entries, and each is in as many places. -/
theorem Bal.same {a b : St × List Nat} (hn : b.1.n = a.1.n) (h : ∀ e, Ctl.tot e b = Ctl.tot e a) : Bal a b := by
  refine ⟨by omega, fun e => ?_⟩
  have : ¬ (a.1.n ≤ e ∧ e < a.1.n) := by omega
  simp [fresh, h, hn, this]

theorem bal_emit (st : St) (i : Instr) (L : List Nat) : Bal (st, L) (st.emit i, L) := .same rfl fun _ => rfl

theorem bal_emitJ (st : St) (i : Nat → Instr) (L : List Nat) : Bal (st, L) (st.emitJ i, st.n :: L) := by
  refine ⟨Nat.le_succ _, fun e => ?_⟩
  simp only [tot, St.emitJ, fresh, List.count_cons]
  by_cases h : st.n = e
  · subst h; simp; omega
  · have : ¬ (st.n ≤ e ∧ e < st.n + 1) := by omega
    simp [h, this]

theorem bal_set (st : St) (e t : Nat) (L : List Nat) : Bal (st, e :: L) (st.set e t, L) := .same rfl fun q => by
  simp only [tot, St.set, List.map_append, List.map_cons, List.map_nil, List.count_append, List.count_cons, List.count_nil]
  omega

theorem bal_setAll (st : St) (es : List Nat) (t : Nat) (L : List Nat) : Bal (st, es ++ L) (st.setAll es t, L) := .same rfl fun q => by
  simp only [tot, St.setAll, List.map_append, List.map_map, Function.comp_def, List.count_append, List.map_id']
  omega

/-- Reordering the local variables. -/
theorem bal_perm (st : St) {L M : List Nat} (h : ∀ e, M.count e = L.count e) : Bal (st, L) (st, M) := .same rfl fun q => by
  simp only [tot, h]

/-- Taking pending jumps into a local variable. -/
theorem bal_takeBreaks (st : St) (L : List Nat) : Bal (st, L) ({ st with breaks := [] }, st.breaks.map (·.2) ++ L) := .same rfl fun q => by
  simp only [tot, List.count_append, List.map_nil, List.count_nil]; omega

theorem bal_putBreaks (st : St) (old : List (Kind × Nat)) (L : List Nat) :
    Bal (st, old.map (·.2) ++ L) ({ st with breaks := st.breaks ++ old }, L) := .same rfl fun q => by
  simp only [tot, List.count_append, List.map_append]; omega

theorem bal_restoreCatch (st : St) (top : Option Nat) (L : List Nat) : Bal (st, L) (st.restoreCatch top, L) := by
  cases top with
  | none => exact bal_emit _ _ _
  | some r =>
    refine (bal_emitJ st (.catch r) L).trans (.same rfl fun q => ?_)
    simp only [tot, St.restoreCatch, St.emitJ, List.map_append, List.map_cons, List.map_nil, List.count_append, List.count_cons, List.count_nil]
    omega

theorem count_filter_map {α : Type} (l : List α) (f : α → Nat) (p : α → Bool) (e : Nat) :
    ((l.filter p).map f).count e + ((l.filter fun x => !p x).map f).count e = (l.map f).count e := by
  induction l with
  | nil => rfl
  | cons a l ih =>
    by_cases h : p a
    · simp [h, List.count_cons]; omega
    · simp [h, List.count_cons]; omega

theorem bal_updateKids (st : St) (r : Nat) (L : List Nat) : Bal (st, L) (st.updateKids r, L) := .same rfl fun q => by
  have := count_filter_map st.kids (·.2) (fun x => x.1 == r) q
  simp only [tot, St.updateKids, List.map_append, List.map_map, Function.comp_def, List.count_append]
  simp only [bne] at *
  omega

theorem bal_finishFall (st : St) (L : List Nat) : Bal (st, L) (st.finishFall, L) := .same rfl fun q => by
  have := count_filter_map st.breaks (·.2) (fun x => x.1 == .fall) q
  simp only [tot, St.finishFall, List.map_append, List.map_map, Function.comp_def, List.count_append]
  simp only [bne] at *
  omega

theorem bal_genJump (x : Ctx) (k : Kind) (st : St) (L : List Nat) : Bal (st, L) (genJump x k st, L) := by
  unfold genJump
  simp only
  have h : ∀ st : St, Bal (st, L) ({ st.emitJ .jmp with breaks := (k, st.n) :: (st.emitJ .jmp).breaks }, L) := fun st => by
    refine (bal_emitJ st .jmp L).trans (.same rfl fun q => ?_)
    simp only [tot, St.emitJ, List.map_cons, List.count_cons]; omega
  split
  · exact (bal_restoreCatch st _ L).trans (h _)
  · exact h _

theorem bal_genReturn (x : Ctx) (r : Nat) (st : St) (L : List Nat) : Bal (st, L) (genReturn x r st, L) := by
  unfold genReturn
  split
  · simp only
    have h : ∀ st : St, Bal (st, L) ({ st.emitJ .jmp with returns := st.n :: (st.emitJ .jmp).returns }, L) := fun st => by
      refine (bal_emitJ st .jmp L).trans (.same rfl fun q => ?_)
      simp only [tot, St.emitJ, List.count_cons]; omega
    split
    · exact (bal_emit st _ L).trans (h _)
    · exact h _
  · exact bal_emit _ _ _

theorem finish_loop_count (l : List (Kind × Nat)) (t c e : Nat) :
    ((l.filterMap (resolve t (some c))).map (·.1)).count e + ((l.filter (kept (some c))).map (·.2)).count e = (l.map (·.2)).count e := by
  induction l with
  | nil => rfl
  | cons a l ih =>
    obtain ⟨k, e'⟩ := a
    cases k <;> simp [List.count_cons, List.filterMap_cons, List.filter_cons, resolve, kept] at ih ⊢ <;> omega

theorem finish_switch_count (l : List (Kind × Nat)) (h : ∀ p ∈ l, p.1 ≠ .fall) (t e : Nat) :
    ((l.filterMap (resolve t none)).map (·.1)).count e + ((l.filter (kept none)).map (·.2)).count e = (l.map (·.2)).count e := by
  induction l with
  | nil => rfl
  | cons a l ih =>
    obtain ⟨k, e'⟩ := a
    have ih := ih fun p hp => h p (by simp [hp])
    have hk := h (k, e') (by simp)
    cases k <;> simp [List.count_cons, List.filterMap_cons, List.filter_cons, resolve, kept] at ih hk ⊢ <;> omega

theorem bal_finishLoop (st : St) (c : Nat) (old : List (Kind × Nat)) (L : List Nat) :
    Bal (st, old.map (·.2) ++ L) (st.finishBC (some c) old, L) := .same rfl fun q => by
  have := finish_loop_count st.breaks st.pc c q
  simp only [tot, St.finishBC, List.map_append, List.count_append]
  omega

theorem bal_finishSwitch (st : St) (h : ∀ p ∈ st.breaks, p.1 ≠ .fall) (old : List (Kind × Nat)) (L : List Nat) :
    Bal (st, old.map (·.2) ++ L) (st.finishBC none old, L) := .same rfl fun q => by
  have := finish_switch_count st.breaks h st.pc q
  simp only [tot, St.finishBC, List.map_append, List.count_append]
  omega

theorem bal_genInner (x : Ctx) (c : Cond) : ∀ (op : Bool) (st : St) (J N L : List Nat),
    Bal (st, J ++ N ++ L) ((genInner x c op st J N).1, (genInner x c op st J N).2.1 ++ (genInner x c op st J N).2.2 ++ L) := by
  induction c with
  | leaf i known =>
    intro op st J N L
    simp only [genInner]
    split
    · refine (bal_emitJ st .jmp _).trans (bal_perm _ fun e => ?_)
      simp only [List.count_append, List.count_cons, List.count_nil]; omega
    · split
      · exact .refl _
      · refine ((bal_emit st _ _).trans (bal_emitJ _ (.jcond op x.d) _)).trans (bal_perm _ fun e => ?_)
        simp only [St.emit, List.count_append, List.count_cons, List.count_nil]; omega
  | not c ih => intro op st J N L; exact ih (!op) st J N L
  | or a b iha ihb =>
    intro op st J N L
    simp only [genInner]
    cases op
    · have h := iha true st N J L
      simp only [Bool.not_false, Bool.false_eq_true, if_false]
      rcases hg : genInner x a true st N J with ⟨s1, N1, J1⟩
      rw [hg] at h
      refine Bal.trans (bal_perm st fun e => ?_) (h.trans (Bal.trans (bal_perm _ fun e => ?_) (ihb false s1 J1 N1 L)))
      · simp only [List.count_append]; omega
      · simp only [List.count_append]; omega
    · exact (iha true st J N L).trans (ihb true _ _ _ L)
  | and a b iha ihb =>
    intro op st J N L
    simp only [genInner]
    cases op
    · exact (iha false st J N L).trans (ihb false _ _ _ L)
    · have h := iha false st N J L
      simp only [Bool.not_true, if_true]
      rcases hg : genInner x a false st N J with ⟨s1, N1, J1⟩
      rw [hg] at h
      refine Bal.trans (bal_perm st fun e => ?_) (h.trans (Bal.trans (bal_perm _ fun e => ?_) (ihb true s1 J1 N1 L)))
      · simp only [List.count_append]; omega
      · simp only [List.count_append]; omega

theorem bal_genCond (x : Ctx) (c : Cond) (op : Bool) (st : St) (L : List Nat) :
    Bal (st, L) ((genCond x c op st).1, (genCond x c op st).2 ++ L) := by
  have := bal_genInner x c op st [] [] L
  simp only [genCond]
  rcases hg : genInner x c op st [] [] with ⟨s1, J, N⟩
  rw [hg] at this
  refine this.trans (Bal.trans (bal_perm _ fun e => ?_) (bal_setAll _ N _ _))
  simp only [List.count_append]; omega

/-! ### The whole compiler -/

def Cases.len : Cases → Nat
  | .nil => 0
  | .cons _ _ _ rest => rest.len + 1

/-- Entries in a list of optional entries. -/
def ents (es : List (Option Nat)) : List Nat := es.filterMap id

theorem genTests_len (x : Ctx) (cs : Cases) : ∀ (st : St), (genTests x cs st).2.length = cs.len := by
  match cs with
  | .nil => intro st; rfl
  | .cons none _ _ rest => intro st; simpa [genTests, Cases.len] using genTests_len x rest st
  | .cons (some i) _ _ rest => intro st; simpa [genTests, Cases.len] using genTests_len x rest _

theorem bal_genTests (x : Ctx) (cs : Cases) : ∀ (st : St) (L : List Nat),
    Bal (st, L) ((genTests x cs st).1, ents (genTests x cs st).2 ++ L) := by
  match cs with
  | .nil => intro st L; exact .refl _
  | .cons none _ _ rest => intro st L; simpa [genTests, ents] using bal_genTests x rest st L
  | .cons (some i) _ _ rest =>
    intro st L
    have h := ((bal_emit st (.case i x.d (x.d + 1) x.env) L).trans (bal_emitJ _ (.jcond true (x.d + 1)) L)).trans (bal_genTests x rest _ _)
    simp only [genTests]
    refine h.trans (bal_perm _ fun e => ?_)
    simp only [ents, List.filterMap_cons, id_eq, List.count_append, List.count_cons, List.cons_append, St.emit]
    omega

theorem fillDefault_len (e : Nat) (es : List (Option Nat)) : (fillDefault e es).length = es.length := by
  induction es with
  | nil => rfl
  | cons o es ih => cases o <;> simp [fillDefault, ih]

theorem fillDefault_count (e : Nat) (es : List (Option Nat)) (q : Nat) :
    (ents (fillDefault e es)).count q = (ents es).count q + if none ∈ es then [e].count q else 0 := by
  induction es with
  | nil => rfl
  | cons o es ih =>
    cases o with
    | none => simp [fillDefault, ents, List.count_cons]
    | some e' =>
      simp only [ents] at ih
      simp [fillDefault, ents, List.count_cons, ih]
      omega

theorem genTests_none (x : Ctx) (cs : Cases) : ∀ (st : St) (k : Nat), none ∈ (genTests x cs st).2 ↔ (dflt cs k).isNone = false := by
  match cs with
  | .nil => intro st k; simp [genTests, dflt]
  | .cons none _ _ rest => intro st k; simp [genTests, dflt]
  | .cons (some i) _ _ rest => intro st k; simp [genTests, dflt]; simpa using genTests_none x rest _ (k + 1)

theorem bal_setO (st : St) (es : List (Option Nat)) (L : List Nat) : Bal (st, ents es ++ L) (st.setO es.head?.join, ents es.tail ++ L) := by
  rcases es with _ | ⟨_ | e, es⟩
  · exact .refl _
  · exact .refl _
  · exact bal_set st e st.pc _

theorem bal_deferCopy (top : Option Nat) (f : St → St) (hf : ∀ st L, Bal (st, L) (f st, L)) (tryB : List (Kind × Nat)) (k : Kind) (st : St)
    (L : List Nat) : Bal (st, (tryB.filter fun x => x.1 == k).map (·.2) ++ L) (deferCopy top f tryB k st, L) := by
  unfold deferCopy
  simp only
  split
  · rename_i h; rw [h]; exact .refl _
  · refine (bal_setAll st _ st.pc L).trans ((bal_restoreCatch _ top L).trans ((hf _ L).trans ((bal_emitJ _ .jmp L).trans (.same rfl fun q => ?_))))
    simp only [tot, St.emitJ, List.map_cons, List.count_cons]; omega

theorem bal_deferCopies (top : Option Nat) (f : St → St) (hf : ∀ st L, Bal (st, L) (f st, L)) (tryB : List (Kind × Nat)) (st : St)
    (L : List Nat) : Bal (st, tryB.map (·.2) ++ L) (deferCopies top f tryB st, L) := by
  unfold deferCopies
  refine Bal.trans (bal_perm st fun e => ?_) ((bal_deferCopy top f hf tryB .brk st _).trans ((bal_deferCopy top f hf tryB .cont _ _).trans
    (bal_deferCopy top f hf tryB .fall _ L)))
  have : ∀ l : List (Kind × Nat), ((l.filter fun x => x.1 == .brk).map (·.2)).count e + (((l.filter fun x => x.1 == .cont).map (·.2)).count e +
      ((l.filter fun x => x.1 == .fall).map (·.2)).count e) = (l.map (·.2)).count e := by
    intro l
    induction l with
    | nil => rfl
    | cons a l ih =>
      obtain ⟨k, e'⟩ := a
      cases k <;> simp [List.count_cons] at ih ⊢ <;> omega
  simp only [List.count_append, ← this tryB]
  omega

theorem bal_deferReturn (x : Ctx) (r : Nat) (f : St → St) (hf : ∀ st L, Bal (st, L) (f st, L)) (tryR : List Nat) (st : St)
    (L : List Nat) : Bal (st, tryR ++ L) (deferReturn x r f tryR st, L) := by
  unfold deferReturn
  split
  · rename_i h; rw [h]; exact .refl _
  · exact (bal_setAll st _ st.pc L).trans ((bal_restoreCatch _ _ L).trans ((hf _ L).trans (bal_genReturn x r _ L)))

theorem Bal.perm {a : St × List Nat} {st : St} {L M : List Nat} (h : Bal a (st, L)) (hp : ∀ e, M.count e = L.count e) : Bal a (st, M) :=
  h.trans (bal_perm st hp)

theorem bal_switch (x : Ctx) (cs : Cases) (st : St) (L : List Nat) {s1 : St} {es : List (Option Nat)} {s2 : St} {fs : List Nat}
    (old : List (Kind × Nat)) (h1 : s1 = (genTests x cs st).1) (he : es = (genTests x cs st).2)
    (hc : ∀ M, Bal (s1.emitJ .jmp, ents (fillDefault s1.n es) ++ M) (s2, fs ++ M)) (hf : ∀ p ∈ s2.breaks, p.1 ≠ .fall) :
    Bal (st, old.map (·.2) ++ L) (((if (dflt cs 0).isNone then s2.set s1.n s2.pc else s2).setAll fs
      (if (dflt cs 0).isNone then s2.set s1.n s2.pc else s2).pc).finishBC none old, L) := by
  subst h1 he
  have hn := genTests_none x cs st 0
  refine Bal.trans ?_ (bal_finishSwitch _ ?_ _ _)
  · refine Bal.trans ?_ (bal_setAll _ _ _ _)
    refine Bal.trans (bal_genTests x cs st _) ?_
    refine Bal.trans (bal_emitJ _ .jmp _) ?_
    split
    · rename_i hd
      have hn : ¬ none ∈ (genTests x cs st).2 := by rw [hn, hd]; exact Bool.noConfusion
      refine Bal.trans ?_ (bal_set _ _ _ _)
      refine Bal.perm (Bal.trans (bal_perm _ fun e => ?_) (hc (((genTests x cs st).1.n) :: (old.map (·.2) ++ L)))) fun e => ?_
      · simp only [List.count_append, fillDefault_count, if_neg hn, List.count_cons]; omega
      · simp only [List.count_append, List.count_cons]; omega
    · rename_i hd
      have hn : none ∈ (genTests x cs st).2 := by rw [hn]; exact Bool.eq_false_iff.2 hd
      refine Bal.trans (bal_perm _ fun e => ?_) (hc (old.map (·.2) ++ L))
      simp only [List.count_append, fillDefault_count, if_pos hn, List.count_cons, List.count_nil]; omega
  · intro p hp
    refine hf p ?_
    simp only [St.setAll, St.set] at hp
    split at hp <;> exact hp

mutual
theorem comp_bal : (s : Stmt) → (a : Kind → Bool) → Placed a s → (x : Ctx) → (st : St) → (L : List Nat) → Bal (st, L) (comp x s st, L)
  | .skip, a, hp, x, st, L => .refl _
  | .act i, a, hp, x, st, L => bal_emit _ _ _
  | .seq s t, a, hp, x, st, L => (comp_bal s a hp.1 x st L).trans (comp_bal t a hp.2 x _ L)
  | .ite c t, a, hp, x, st, L => by
    simp only [comp]
    refine Bal.trans ?_ (bal_setAll _ _ _ _)
    exact (bal_genCond x c false st L).trans (comp_bal t a hp x _ _)
  | .itee c t e, a, hp, x, st, L => by
    simp only [comp]
    refine Bal.trans ?_ (bal_set _ _ _ _)
    refine Bal.trans ?_ (comp_bal e a hp.2 x _ _)
    refine Bal.trans ?_ (bal_setAll _ _ _ _)
    refine Bal.perm (((bal_genCond x c false st L).trans (comp_bal t a hp.1 x _ _)).trans (bal_emitJ _ _ _)) fun e => ?_
    · simp only [List.count_append, List.count_cons]; omega
  | .while c b, a, hp, x, st, L => by
    simp only [comp]
    split
    · exact .refl _
    · refine Bal.trans ?_ (bal_finishLoop _ _ _ _)
      refine Bal.trans ?_ (bal_setAll _ _ _ _)
      refine Bal.trans ?_ (bal_setAll _ _ _ _)
      refine Bal.trans ?_ (bal_genCond x.inLoop c true _ _)
      refine Bal.trans ?_ (comp_bal b _ hp x.inLoop _ _)
      exact (bal_takeBreaks st L).trans (bal_genCond x.inLoop c false _ _)
  | .repeat b c, a, hp, x, st, L => by
    simp only [comp]
    split
    · exact ((bal_takeBreaks st L).trans (comp_bal b _ hp x.inLoop _ _)).trans (bal_finishLoop _ _ _ _)
    · refine Bal.trans ?_ (bal_finishLoop _ _ _ _)
      refine Bal.trans ?_ (bal_setAll _ _ _ _)
      refine Bal.trans ?_ (bal_genCond x.inLoop c true _ _)
      exact ((bal_takeBreaks st L).trans (comp_bal b _ hp x.inLoop _ _))
  | .forIn i j b, a, hp, x, st, L => by
    simp only [comp]
    refine Bal.trans ?_ (bal_finishLoop _ _ _ _)
    refine Bal.trans ?_ (bal_set _ _ _ _)
    refine Bal.trans ?_ (bal_set _ _ _ _)
    refine Bal.trans ?_ (bal_emitJ _ _ _)
    refine Bal.trans ?_ (comp_bal b _ hp x.inLoop _ _)
    exact (bal_takeBreaks st L).trans ((bal_emit _ _ _).trans (bal_emitJ _ _ _))
  | .switch i .nil, a, hp, x, st, L => .same rfl fun _ => rfl
  | .switch i (.cons none b ft .nil), a, hp, x, st, L => by
    simp only [comp]
    refine Bal.trans ?_ (bal_finishSwitch _ ?_ _ _)
    · exact ((bal_takeBreaks st L).trans (bal_emit _ _ _)).trans (comp_bal b _ hp.1 x _ _)
    · intro p hq
      rcases comp_brOk b _ hp.1 x _ p hq with h | h
      · cases h
      · intro hk; rw [hk] at h; cases h
  | .switch i (.cons (some t) b ft rest), a, hp, x, st, L => by
    simp only [comp]
    have hs : Bal (st, L) (({ st with breaks := [] } : St).emit (.eval i x.d x.env), st.breaks.map (·.2) ++ L) :=
      (bal_takeBreaks st L).trans (bal_emit _ _ _)
    refine hs.trans (bal_switch x (.cons (some t) b ft rest) _ L st.breaks rfl rfl (fun M => ?_) ?_)
    · exact compCases_bal (.cons (some t) b ft rest) a hp x _ (by rw [fillDefault_len, genTests_len]) true _ M
    · exact compCases_nofall (.cons (some t) b ft rest) a hp x _ true _ (by
        intro p h
        rw [show (St.emitJ _ _).breaks = _ from (genTests_grows (d := 0) x _ _).2] at h
        cases h)
  | .switch i (.cons none b ft (.cons t b' ft' rest)), a, hp, x, st, L => by
    simp only [comp]
    have hs : Bal (st, L) (({ st with breaks := [] } : St).emit (.eval i x.d x.env), st.breaks.map (·.2) ++ L) :=
      (bal_takeBreaks st L).trans (bal_emit _ _ _)
    refine hs.trans (bal_switch x (.cons none b ft (.cons t b' ft' rest)) _ L st.breaks rfl rfl (fun M => ?_) ?_)
    · exact compCases_bal (.cons none b ft (.cons t b' ft' rest)) a hp x _ (by rw [fillDefault_len, genTests_len]) true _ M
    · exact compCases_nofall (.cons none b ft (.cons t b' ft' rest)) a hp x _ true _ (by
        intro p h
        rw [show (St.emitJ _ _).breaks = _ from (genTests_grows (d := 0) x _ _).2] at h
        cases h)
  | .jump k, a, hp, x, st, L => bal_genJump x k st L
  | .ret i, a, hp, x, st, L => (bal_emit st _ L).trans (bal_genReturn x _ _ L)
  | .throw i, a, hp, x, st, L => (bal_emit st _ L).trans (bal_emit _ _ L)
  | .assert c k, a, hp, x, st, L => by
    simp only [comp]
    refine Bal.trans ?_ (bal_setAll _ _ _ _)
    exact (bal_genCond x c true st L).trans ((bal_emit _ _ _).trans (bal_emit _ _ _))
  | .tryCatch b h, a, hp, x, st, L => by
    simp only [comp]
    have hb := ((bal_takeBreaks st L).trans (bal_emitJ _ (.catch x.d) _)).trans (comp_bal b a hp.1
      { x with tries := (x.d, false) :: x.tries, d := x.d + 1 } _ _)
    have hj := ((hb.trans (bal_restoreCatch _ x.top _)).trans (bal_emitJ _ .jmp _)).trans (bal_updateKids _ x.d _)
    have hk := hj.perm (M := st.n :: (((comp { x with tries := (x.d, false) :: x.tries, d := x.d + 1 } b
        (({ st with breaks := [] } : St).emitJ (.catch x.d))).restoreCatch x.top).n :: (st.breaks.map (·.2) ++ L)))
      fun e => by simp only [List.count_cons]; omega
    refine Bal.trans (Bal.trans ?_ (bal_set _ _ _ _)) (bal_putBreaks _ st.breaks L)
    exact ((hk.trans (bal_set _ st.n _ _)).trans (bal_restoreCatch _ x.top _)).trans
      (comp_bal h a hp.2 { x with d := x.d + 1, env := x.d :: x.env } _ _)
  | .tryDefer b f, a, hp, x, st, L => by
    simp only [comp]
    have hf : ∀ st L, Bal (st, L) (comp { x with d := x.d + 1 } f st, L) := fun st L => comp_bal f a hp.2 _ st L
    refine Bal.trans ?_ (bal_set _ _ _ _)
    refine Bal.trans ?_ (bal_deferReturn _ _ _ hf _ _ _)
    refine Bal.trans ?_ (bal_deferCopies _ _ hf _ _ _)
    refine Bal.trans ?_ (bal_emit _ _ _)
    have h0 : Bal (st, L) (({ st with breaks := [], returns := [] } : St).emit (.void x.d), st.breaks.map (·.2) ++ (st.returns ++ L)) :=
      .same rfl fun q => by simp only [tot, St.emit, List.map_nil, List.count_nil, List.count_append]; omega
    have hb := (h0.trans (bal_emitJ _ (.catch x.d) _)).trans (comp_bal b a hp.1
      { x with tries := (x.d, true) :: x.tries, d := x.d + 1 } _ _)
    generalize hs : comp { x with tries := (x.d, true) :: x.tries, d := x.d + 1 } b
      ((({ st with breaks := [], returns := [] } : St).emit (.void x.d)).emitJ (.catch x.d)) = s1 at hb ⊢
    have hc : Bal (s1, (({ st with breaks := [], returns := [] } : St).emit (.void x.d)).n :: (st.breaks.map (·.2) ++ (st.returns ++ L)))
        ({ s1 with breaks := st.breaks, returns := st.returns }, st.n :: (s1.breaks.map (·.2) ++ (s1.returns ++ L))) :=
      .same rfl fun q => by simp only [tot, St.emit, List.count_cons, List.count_append]; omega
    have hd := (hb.trans hc).trans (bal_updateKids _ x.d _)
    refine (((((hd.trans (bal_set _ (({ st with breaks := [], returns := [] } : St).emit (.void x.d)).n _ _)).trans (bal_restoreCatch _ x.top _)).trans (hf _ _)).trans (bal_emitJ _ (.jcond false x.d) _))).perm
      fun e => ?_
    simp only [List.count_append, List.count_cons]; omega

theorem compCases_bal : (cs : Cases) → (a : Kind → Bool) → PlacedCases a cs → (x : Ctx) → (es : List (Option Nat)) → es.length = cs.len →
    (first : Bool) → (st : St) → (L : List Nat) →
    Bal (st, ents es ++ L) ((compCases x cs es first st).1, (compCases x cs es first st).2 ++ L)
  | .nil, a, hp, x, es, hl, first, st, L => by
    have : es = [] := List.length_eq_zero_iff.1 hl
    subst this
    exact .refl _
  | .cons t b ft rest, a, hp, x, es, hl, first, st, L => by
    have hl' : es.tail.length = rest.len := by simp [hl, Cases.len]
    have h1 : ∀ (st : St) L, Bal (st, L) (if first then st else st.finishFall, L) := by
      intro st L; split
      · exact .refl _
      · exact bal_finishFall _ _
    have h2 := ((bal_setO st es L).trans (h1 _ _)).trans (comp_bal b _ hp.1 x _ _)
    simp only [compCases]
    split
    · exact h2.trans (compCases_bal rest a hp.2 x es.tail hl' false _ L)
    · generalize comp x b _ = s1 at h2 ⊢
      have h3 := ((h2.trans (bal_emitJ _ .jmp _)).perm (M := ents es.tail ++ s1.n :: L) fun e => by
        simp only [List.count_append, List.count_cons]; omega)
      refine (h3.trans (compCases_bal rest a hp.2 x es.tail hl' false _ (s1.n :: L))).perm fun e => ?_
      simp only [List.count_append, List.count_cons]; omega
end

/-! ### Functions -/

def noKind : Kind → Bool := fun _ => false

/-- At the end of a function, nothing is left open. -/
theorem compFun_closed (opt : Bool) (b : Stmt) (hb : Placed noKind b) :
    (compFun opt b).breaks = [] ∧ (compFun opt b).returns = [] ∧ (compFun opt b).kids = [] := by
  have h1 := comp_brOk b noKind hb { opt := opt } {}
  obtain ⟨h2, h3⟩ := comp_newOk b { opt := opt } (fun r h => by cases h) {}
  simp only [compFun, St.emit]
  refine ⟨List.eq_nil_iff_forall_not_mem.2 fun p hp => ?_, List.eq_nil_iff_forall_not_mem.2 fun p hp => ?_,
    List.eq_nil_iff_forall_not_mem.2 fun p hp => ?_⟩
  · rcases h1 p hp with h | h
    · cases h
    · cases h
  · rcases h3 p hp with h | ⟨t, h, -⟩
    · cases h
    · cases h
  · rcases h2 p hp with h | h
    · cases h
    · cases h

theorem compFun_count (opt : Bool) (b : Stmt) (hb : Placed noKind b) (e : Nat) :
    ((compFun opt b).log.map (·.1)).count e = if e < (compFun opt b).n then 1 else 0 := by
  obtain ⟨h1, h2, h3⟩ := compFun_closed opt b hb
  have h := (((comp_bal b noKind hb { opt := opt } {} []).trans (bal_emit _ (.void 0) _)).trans (bal_emit _ (.ret 0) _)).tot e
  have h : tot e (compFun opt b, []) = tot e (({} : St), []) + fresh 0 (compFun opt b).n e := h
  simpa [tot, h1, h2, h3, fresh] using h

theorem lookup_of_count {l : List (Nat × Nat)} {e t : Nat} (hm : (e, t) ∈ l) (hc : (l.map (·.1)).count e = 1) : l.lookup e = some t := by
  induction l with
  | nil => cases hm
  | cons p l ih =>
    obtain ⟨e', t'⟩ := p
    simp only [List.map_cons, List.count_cons, beq_iff_eq] at hc
    by_cases h : e' = e
    · subst h
      rw [if_pos rfl] at hc
      rcases List.mem_cons.1 hm with h | h
      · simp [List.lookup, (Prod.mk.inj h).2]
      · exact absurd (List.mem_map_of_mem (f := (·.1)) h) (List.count_eq_zero.1 (show (l.map (·.1)).count e' = 0 by omega))
    · rw [if_neg h] at hc
      rcases List.mem_cons.1 hm with h' | h'
      · exact absurd (Prod.mk.inj h').1.symm h
      · have hne : (e == e') = false := by simpa using fun h' => h h'.symm
        simp only [List.lookup, hne]
        exact ih h' hc

theorem compFun_tgt (opt : Bool) (b : Stmt) (hb : Placed noKind b) {e t : Nat} (h : (e, t) ∈ (compFun opt b).log) :
    (compFun opt b).prog.tgt e = some t := by
  refine lookup_of_count (List.mem_reverse.2 h) ?_
  have hp : ((compFun opt b).log.map (·.1)).count e ≠ 0 := by
    rw [Ne, List.count_eq_zero]
    exact fun hn => hn (List.mem_map_of_mem (f := (·.1)) h)
  have := compFun_count opt b hb e
  rw [List.map_reverse, List.count_reverse]
  split at this <;> omega

end Verif.Ctl
