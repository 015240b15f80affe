import Verif.Ctl.Sim
import Verif.Ctl.Mono
import Verif.Props.C61

/-
C60: compiled code does what the statements mean.

A function's code, run from its first instruction, returns a value or ends with an exception exactly if the body does, with the same value
and the same memory.  In particular the code runs forever if the body does.
-/
namespace Verif.Ctl

variable {σ V : Type}

/-- The code of the function with body `b` does what `b` means. -/
def RunsAs (S : Sem σ V) (opt : Bool) (b : Stmt) : Prop := ∀ (regs : Nat → V) (s : σ),
  (∀ v s', Halts S (compFun opt b).prog ⟨0, regs, none, s⟩ (.ret v s') ↔ Ends S b s (.ret v) s') ∧
  (∀ v s', Halts S (compFun opt b).prog ⟨0, regs, none, s⟩ (.thr v s') ↔ Ends S b s (.thr v) s')

/-- The full claim: for all bodies which the parser accepts. -/
def C60_full : Prop := ∀ (σ V : Type) (S : Sem σ V) (opt : Bool) (b : Stmt), S.Lawful → KnownS S b → WellPlaced b → RunsAs S opt b

/-- `break`, `continue` and `fallthrough` arrive with the right exception handler, see `Safe`; and all conditions are straight, see C56. -/
def SafeBody (b : Stmt) : Prop := Safe none none 0 (fun _ => .no) b

mutual
theorem safe_placed : (s : Stmt) → (top last : Option Nat) → (d : Nat) → (w : Kind → Want) → (a : Kind → Bool) →
    (∀ k, w k ≠ .no → a k = true) → Safe top last d w s → Placed a s
  | .skip, _, _, _, _, _, _, _ => trivial
  | .act _, _, _, _, _, _, _, _ => trivial
  | .seq s t, top, last, d, w, a, ha, h => ⟨safe_placed s top last d w a ha h.1, safe_placed t top last d w a ha h.2⟩
  | .ite _ t, top, last, d, w, a, ha, h => safe_placed t top last d w a ha h.2
  | .itee _ t e, top, last, d, w, a, ha, h => ⟨safe_placed t top last d w a ha h.2.1, safe_placed e top last d w a ha h.2.2⟩
  | .while _ b, top, last, d, w, a, ha, h => safe_placed b top _ d _ _ (fun k => by
      cases k with
      | brk => exact fun _ => rfl
      | cont => exact fun _ => rfl
      | fall => exact ha .fall) h.2
  | .repeat b _, top, last, d, w, a, ha, h => safe_placed b top _ d _ _ (fun k => by
      cases k with
      | brk => exact fun _ => rfl
      | cont => exact fun _ => rfl
      | fall => exact ha .fall) h.2
  | .forIn _ _ b, top, last, d, w, a, ha, h => safe_placed b top _ d _ _ (fun k => by
      cases k with
      | brk => exact fun _ => rfl
      | cont => exact fun _ => rfl
      | fall => exact ha .fall) h
  | .switch _ cs, top, last, d, w, a, ha, h => safe_placedCases cs top last d w a ha h
  | .jump k, top, last, d, w, a, ha, h => by
    refine ha k fun hk => ?_
    simp only [Safe, hk] at h
  | .ret _, _, _, _, _, _, _, _ => trivial
  | .throw _, _, _, _, _, _, _, _ => trivial
  | .assert _ _, _, _, _, _, _, _, _ => trivial
  | .tryCatch b h', top, last, d, w, a, ha, h => ⟨safe_placed b _ last _ w a ha h.1, safe_placed h' top last _ w a ha h.2⟩
  | .tryDefer b f, top, last, d, w, a, ha, h => ⟨safe_placed b _ last _ _ a (fun k hk => ha k fun h0 => hk (by simp [deferWant, h0])) h.1,
      safe_placed f top last _ w a ha h.2⟩

theorem safe_placedCases : (cs : Cases) → (top last : Option Nat) → (d : Nat) → (w : Kind → Want) → (a : Kind → Bool) →
    (∀ k, w k ≠ .no → a k = true) → SafeCases top last d w cs → PlacedCases a cs
  | .nil, _, _, _, _, _, _, _ => trivial
  | .cons _ b _ rest, top, last, d, w, a, ha, h => ⟨safe_placed b top last d _ _ (fun k => by
      cases k with
      | brk => exact fun _ => rfl
      | cont => exact ha .cont
      | fall => cases rest.isNil <;> simp [caseWant, caseAllow]) h.1, safe_placedCases rest top last d w a ha h.2⟩
end

theorem SafeBody.placed {b : Stmt} (h : SafeBody b) : WellPlaced b := safe_placed b _ _ _ _ _ (fun _ h => absurd rfl h) h

/-- The machine is deterministic. -/
theorem halts_unique {S : Sem σ V} {P : Prog} {c : Cfg σ V} {r r' : Next σ V} (h : Halts S P c r) (h' : Halts S P c r') (hr : ∀ d, r ≠ .run d)
    (hr' : ∀ d, r' ≠ .run d) : r = r' := by
  obtain ⟨k, a, h1, h2⟩ := h
  obtain ⟨k', a', h1', h2'⟩ := h'
  induction h1 generalizing k' with
  | refl =>
    cases h1' with
    | refl => exact h2.symm.trans h2'
    | cons hs _ => exact absurd (h2.symm.trans hs) (hr _)
  | cons hs _ ih =>
    cases h1' with
    | refl => exact absurd (h2'.symm.trans hs) (hr' _)
    | cons hs' h1' =>
      rw [hs] at hs'
      cases hs'
      exact ih h2 _ h1'

/-- A machine which halts has not taken more steps. -/
theorem halts_bound {S : Sem σ V} {P : Prog} {c : Cfg σ V} {k : Nat} {a : Cfg σ V} (h1 : Reach S P k c a) (h2 : ∀ d, step S P a ≠ .run d) :
    ∀ {j : Nat} {b : Cfg σ V}, Reach S P j c b → j ≤ k := by
  induction h1 with
  | refl =>
    intro j b hb
    cases hb with
    | refl => exact Nat.le_refl _
    | cons hs _ => exact absurd hs (h2 _)
  | cons hs _ ih =>
    intro j b hb
    cases hb with
    | refl => exact Nat.zero_le _
    | cons hs' hb =>
      rw [hs] at hs'
      cases hs'
      exact Nat.succ_le_succ (ih h2 hb)

/-- What the machine does, given the result of the body with at most `n` passes through loops. -/
theorem function_runs (S : Sem σ V) (hS : S.Lawful) (opt : Bool) (b : Stmt) (hk : KnownS S b) (hs : SafeBody b) (regs : Nat → V) (s : σ) (n : Nat) :
    match exec S n b [] s with
    | none => ∃ k c, Reach S (compFun opt b).prog k ⟨0, regs, none, s⟩ c ∧ n ≤ k + 1
    | some (.normal, s') => Halts S (compFun opt b).prog ⟨0, regs, none, s⟩ (.ret S.void s')
    | some (.ret v, s') => Halts S (compFun opt b).prog ⟨0, regs, none, s⟩ (.ret v s')
    | some (.thr v, s') => Halts S (compFun opt b).prog ⟨0, regs, none, s⟩ (.thr v s')
    | some (.jump _, _) => False := by
  have hp := hs.placed
  obtain ⟨c1, c2, c3⟩ := C61_closed opt b hp
  have hl : Lk (compFun opt b).prog ⟨fun _ => 0, 0, fun _ => 0⟩ [] (comp { opt := opt } b {}) := by
    refine ⟨⟨[.void 0, .ret 0], by simp [compFun, St.emit, St.prog]⟩, fun p h => compFun_tgt opt b hp h, fun e he => ?_, fun p h hm => by cases hm⟩
    have : e ∈ (compFun opt b).returns := he
    rw [c2] at this
    cases this
  have hx : XOk ({ opt := opt } : Ctx) := ⟨fun _ h => (by cases h), fun _ h => (by cases h), .nil, fun _ h => (by cases h)⟩
  have h := comp_sim (P := (compFun opt b).prog) hS b { opt := opt } ⟨fun _ => 0, 0, fun _ => 0⟩ (fun _ => .no) {} hx
    (fun _ _ h => by cases h) hs hk hl (fun p _ h => absurd rfl h) n ⟨0, regs, none, s⟩ rfl rfl
  simp only [List.map_nil] at h
  rcases hr : exec S n b [] s with _ | ⟨_ | kd | v | v, s'⟩ <;> rw [hr] at h <;> simp only
  · exact h
  · obtain ⟨k, c, ha⟩ := h
    have h0 : (compFun opt b).prog.code[c.pc]? = some (.void 0) := by
      rw [ha.pc]
      simp [compFun, St.emit, St.prog, St.pc]
    have h1 : (compFun opt b).prog.code[c.pc + 1]? = some (.ret 0) := by
      rw [ha.pc]
      simp [compFun, St.emit, St.prog, St.pc]
    refine ⟨k + 1, { c with pc := c.pc + 1, regs := upd c.regs 0 S.void }, ha.reach.snoc (by simp [step, h0]), ?_⟩
    simp [step, h1, upd, ha.mem]
  · exact h.2.elim fun _ ⟨_, h⟩ => h.2
  · exact h
  · obtain ⟨u, k, c, hu, ha⟩ := h
    refine ⟨k, c, ha.reach, ?_⟩
    rw [ha.step, raise, ha.hnd, ← hu]

/-- **C60**, for bodies which are `SafeBody`.  Missing: all other bodies, see the `violated` theorems below. -/
theorem C60_partial (S : Sem σ V) (opt : Bool) (b : Stmt) (hS : S.Lawful) (hk : KnownS S b) (hs : SafeBody b) : RunsAs S opt b := by
  intro regs s
  have hall := function_runs S hS opt b hk hs regs s
  -- from the body to the machine
  have hto : ∀ o s', Ends S b s o s' → (∀ v, o = .ret v → Halts S (compFun opt b).prog ⟨0, regs, none, s⟩ (.ret v s')) ∧
      (∀ v, o = .thr v → Halts S (compFun opt b).prog ⟨0, regs, none, s⟩ (.thr v s')) := by
    intro o s' h
    cases h with
    | ret n v s' h =>
      have := hall n
      rw [h] at this
      exact ⟨fun _ h => (by cases h; exact this), fun _ h => (by cases h)⟩
    | thr n v s' h =>
      have := hall n
      rw [h] at this
      exact ⟨fun _ h => (by cases h), fun _ h => (by cases h; exact this)⟩
    | fin n s' h =>
      have := hall n
      rw [h] at this
      exact ⟨fun _ h => (by cases h; exact this), fun _ h => (by cases h)⟩
  -- from the machine to the body
  have hfrom : ∀ r, Halts S (compFun opt b).prog ⟨0, regs, none, s⟩ r → (∀ d, r ≠ .run d) →
      ∃ o s', Ends S b s o s' ∧ ((∃ v, o = .ret v ∧ r = .ret v s') ∨ (∃ v, o = .thr v ∧ r = .thr v s')) := by
    intro r h hr
    obtain ⟨k, c, h1, h2⟩ := id h
    have hn := hall (k + 2)
    rcases he : exec S (k + 2) b [] s with _ | ⟨_ | kd | v | v, s'⟩ <;> rw [he] at hn <;> simp only at hn
    · obtain ⟨j, c', h3, h4⟩ := hn
      have := halts_bound h1 (by rw [h2]; exact hr) h3
      omega
    · exact ⟨_, _, .fin _ _ he, .inl ⟨_, rfl, halts_unique h hn hr (by simp)⟩⟩
    · exact ⟨_, _, .ret _ _ _ he, .inl ⟨_, rfl, halts_unique h hn hr (by simp)⟩⟩
    · exact ⟨_, _, .thr _ _ _ he, .inr ⟨_, rfl, halts_unique h hn hr (by simp)⟩⟩
  refine ⟨fun v s' => ⟨fun h => ?_, fun h => (hto _ _ h).1 v rfl⟩, fun v s' => ⟨fun h => ?_, fun h => (hto _ _ h).2 v rfl⟩⟩
  · obtain ⟨o, s'', h1, ⟨v', rfl, h2⟩ | ⟨v', rfl, h2⟩⟩ := hfrom _ h (by simp)
    · cases h2; exact h1
    · cases h2
  · obtain ⟨o, s'', h1, ⟨v', rfl, h2⟩ | ⟨v', rfl, h2⟩⟩ := hfrom _ h (by simp)
    · cases h2
    · cases h2; exact h1

/-- If the body does not end, the machine runs forever. -/
theorem C60_diverges_partial (S : Sem σ V) (opt : Bool) (b : Stmt) (hS : S.Lawful) (hk : KnownS S b) (hs : SafeBody b) (regs : Nat → V) (s : σ)
    (h : ∀ o s', ¬ Ends S b s o s') (k : Nat) : ∃ c, Reach S (compFun opt b).prog k ⟨0, regs, none, s⟩ c := by
  have hn := function_runs S hS opt b hk hs regs s (k + 1)
  have cut : ∀ {j : Nat} {a c : Cfg σ V} (k : Nat), Reach S (compFun opt b).prog j a c → k ≤ j → ∃ c, Reach S (compFun opt b).prog k a c := by
    intro j a c k hr
    induction hr generalizing k with
    | refl c => intro hk; exact ⟨c, by rw [Nat.le_zero.1 hk]; exact .refl c⟩
    | @cons j a b c hs hr ih =>
      intro hk
      cases k with
      | zero => exact ⟨a, .refl a⟩
      | succ k =>
        obtain ⟨c', h'⟩ := ih k (by omega)
        exact ⟨c', .cons hs h'⟩
  rcases he : exec S (k + 1) b [] s with _ | ⟨_ | kd | v | v, s'⟩ <;> rw [he] at hn <;> simp only at hn
  · obtain ⟨j, c, h1, h2⟩ := hn
    exact cut k h1 (by omega)
  · exact absurd (.fin _ _ he) (h _ _)
  · exact absurd (.ret _ _ _ he) (h _ _)
  · exact absurd (.thr _ _ _ he) (h _ _)

/-! ### Bodies without `try` -/

mutual
/-- No `try`, `with` or `defer`, and all conditions are straight. -/
def Simple : Stmt → Prop
  | .skip => True
  | .act _ => True
  | .seq a b => Simple a ∧ Simple b
  | .ite c t => Straight c ∧ Simple t
  | .itee c t e => Straight c ∧ Simple t ∧ Simple e
  | .while c b => Straight c ∧ Simple b
  | .repeat b c => Straight c ∧ Simple b
  | .forIn _ _ b => Simple b
  | .switch _ cs => SimpleCases cs
  | .jump _ => True
  | .ret _ => True
  | .throw _ => True
  | .assert c _ => Straight c
  | .tryCatch _ _ => False
  | .tryDefer _ _ => False

def SimpleCases : Cases → Prop
  | .nil => True
  | .cons _ b _ rest => Simple b ∧ SimpleCases rest
end

/-- Each jump has a place to go to, where no handler is expected. -/
def Clear (a : Kind → Bool) (w : Kind → Want) : Prop := ∀ k, a k = true → w k = .at none

mutual
theorem simple_safe : (s : Stmt) → (a : Kind → Bool) → (w : Kind → Want) → Clear a w → Placed a s → Simple s → ∀ d, Safe none none d w s
  | .skip, _, _, _, _, _, _ => trivial
  | .act _, _, _, _, _, _, _ => trivial
  | .seq s t, a, w, hc, hp, h, d => ⟨simple_safe s a w hc hp.1 h.1 d, simple_safe t a w hc hp.2 h.2 d⟩
  | .ite _ t, a, w, hc, hp, h, d => ⟨h.1, simple_safe t a w hc hp h.2 d⟩
  | .itee _ t e, a, w, hc, hp, h, d => ⟨h.1, simple_safe t a w hc hp.1 h.2.1 d, simple_safe e a w hc hp.2 h.2.2 d⟩
  | .while _ b, a, w, hc, hp, h, d => ⟨h.1, simple_safe b _ _ (fun k hk => by
      cases k with
      | brk => rfl
      | cont => rfl
      | fall => exact hc .fall hk) hp h.2 d⟩
  | .repeat b _, a, w, hc, hp, h, d => ⟨h.1, simple_safe b _ _ (fun k hk => by
      cases k with
      | brk => rfl
      | cont => rfl
      | fall => exact hc .fall hk) hp h.2 d⟩
  | .forIn _ _ b, a, w, hc, hp, h, d => simple_safe b _ _ (fun k hk => by
      cases k with
      | brk => rfl
      | cont => rfl
      | fall => exact hc .fall hk) hp h d
  | .switch _ cs, a, w, hc, hp, h, d => simple_safeCases cs a w hc hp h d
  | .jump k, a, w, hc, hp, h, d => by
    simp only [Safe, hc k hp]
    rfl
  | .ret _, _, _, _, _, _, _ => trivial
  | .throw _, _, _, _, _, _, _ => trivial
  | .assert _ _, _, _, _, _, h, _ => h
  | .tryCatch _ _, _, _, _, _, h, _ => h.elim
  | .tryDefer _ _, _, _, _, _, h, _ => h.elim

theorem simple_safeCases : (cs : Cases) → (a : Kind → Bool) → (w : Kind → Want) → Clear a w → PlacedCases a cs → SimpleCases cs →
    ∀ d, SafeCases none none d w cs
  | .nil, _, _, _, _, _, _ => trivial
  | .cons _ b _ rest, a, w, hc, hp, h, d => ⟨simple_safe b _ _ (fun k hk => by
      cases k with
      | brk => rfl
      | cont => exact hc .cont hk
      | fall => cases hr : rest.isNil <;> simp [caseWant, caseAllow, hr] at hk ⊢) hp.1 h.1 d, simple_safeCases rest a w hc hp.2 h.2 d⟩
end

/-- **C60** for all functions without `try`, `with` and `defer` whose conditions are straight. -/
theorem C60_simple_partial (S : Sem σ V) (opt : Bool) (b : Stmt) (hS : S.Lawful) (hk : KnownS S b) (hp : WellPlaced b) (hs : Simple b) :
    RunsAs S opt b :=
  C60_partial S opt b hS hk (simple_safe b _ _ (fun _ h => by cases h) hp hs 0)

/-! ### Counterexamples -/

/-- Run at most `n` steps. -/
def run (S : Sem σ V) (P : Prog) : Nat → Cfg σ V → Option (Out V × σ)
  | 0, _ => none
  | n + 1, c =>
    match step S P c with
    | .run c' => run S P n c'
    | .ret v s => some (.ret v, s)
    | .thr v s => some (.thr v, s)
    | .stuck => none

theorem run_halts {S : Sem σ V} {P : Prog} : ∀ {n : Nat} {c : Cfg σ V} {v : V} {s : σ}, run S P n c = some (.ret v, s) → Halts S P c (.ret v s)
  | 0, c, v, s, h => by cases h
  | n + 1, c, v, s, h => by
    simp only [run] at h
    split at h
    · rename_i c' hs
      obtain ⟨k, c'', h1, h2⟩ := run_halts h
      exact ⟨k + 1, c'', .cons hs h1, h2⟩
    · rename_i hs
      simp only [Option.some.injEq, Prod.mk.injEq, Out.ret.injEq] at h
      obtain ⟨rfl, rfl⟩ := h
      exact ⟨0, c, .refl c, hs⟩
    · simp at h
    · cases h

/-- Values are numbers; 0 is `void` and `false`, 1 is `true`, numbers from 100 on are exceptions.  Expression `i` has the value `i`. -/
def toySem : Sem Unit Nat where
  expr i _ s := .ok i s
  truthy v := v != 0
  void := 0
  ofBool b := if b then 1 else 0
  wrap v := if v < 100 then v + 100 else v
  next _ _ s := .ok false s
  same i _ v s := .ok (i == v) s

theorem toySem_lawful : toySem.Lawful where
  void := by decide
  bool := by intro b; cases b <;> rfl
  wrapped := by intro v; simp only [toySem]; split <;> simp <;> omega
  again := by intro v; simp only [toySem]; split <;> simp <;> omega

/-- The code returns `v` but the body means something else. -/
theorem wrong_code {b : Stmt} {n m v : Nat} {o : Out Nat} {opt : Bool} (hr : run toySem (compFun opt b).prog n ⟨0, fun _ => 0, none, ()⟩ = some (.ret v, ()))
    (he : exec toySem m b [] () = some (o, ())) (ho : o ≠ .normal) (hne : o ≠ .ret v) : ¬ RunsAs toySem opt b := by
  intro h
  have := ((h (fun _ => 0) ()).1 v ()).1 (run_halts hr)
  generalize ho' : Out.ret v = o' at this
  cases this with
  | ret n v' s' h2 => exact hne ((exec_unique he h2).1.trans ho'.symm)
  | thr n v' s' h2 => cases ho'
  | fin n s' h2 => exact ho (exec_unique he h2).1

/-- `loop { try { break } catch const e { return 7 } } throw 5` -/
def staleHandler : Stmt :=
  .seq (.while (.leaf 1 none) (.tryCatch (.jump .brk) (.ret 7))) (.throw 5)

/-- Leaving a `try` with `break` leaves its handler installed, if there is no `try` around the loop: an exception thrown later gets to the
`catch` clause of a `try` which is over. -/
theorem C60_break_violated : ¬ RunsAs toySem true staleHandler :=
  wrong_code (n := 20) (m := 5) (v := 7) (o := .thr 105) (by decide +kernel) (by decide +kernel) (by decide) (by decide)

/-- `try { loop { try { switch 1 { case 1 { fallthrough } default {} } throw 5 } catch const e { return 7 } } } catch const e { return 8 }` -/
def switchHandler : Stmt :=
  .tryCatch (.while (.leaf 1 none) (.tryCatch (.seq (.switch 1 (.cons (some 1) (.jump .fall) true (.cons none .skip false .nil))) (.throw 5)) (.ret 7)))
    (.ret 8)

/-- `fallthrough` and `break` in a `switch` install the handler noted at the loop: the exception does not get to the `try` around it. -/
theorem C60_switch_violated : ¬ RunsAs toySem true switchHandler :=
  wrong_code (n := 30) (m := 5) (v := 8) (o := .ret 7) (by decide +kernel) (by decide +kernel) (by decide) (by decide)

/-- `try { loop { try { with ... { break } } catch const e { return 7 } } throw 5 } catch const e { return 8 }` -/
def deferHandler : Stmt :=
  .tryCatch (.seq (.while (.leaf 1 none) (.tryCatch (.tryDefer (.jump .brk) .skip) (.ret 7))) (.throw 5)) (.ret 8)

/-- `break` through deferred code: the handler which the copy of the deferred code installs stays. -/
theorem C60_defer_violated : ¬ RunsAs toySem true deferHandler :=
  wrong_code (n := 40) (m := 5) (v := 7) (o := .ret 8) (by decide +kernel) (by decide +kernel) (by decide) (by decide)

/-- `if (0 && 1) || 1 { return 2 } return 3`, see C56. -/
def wrongBranch : Stmt := .seq (.ite (.or (.and (.leaf 0 none) (.leaf 1 none)) (.leaf 1 none)) (.ret 2)) (.ret 3)

theorem C60_condition_violated : ¬ RunsAs toySem true wrongBranch :=
  wrong_code (n := 20) (m := 1) (v := 3) (o := .ret 2) (by decide +kernel) (by decide +kernel) (by decide) (by decide)

theorem C60_violated : ¬ C60_full := fun h =>
  C60_break_violated (h Unit Nat toySem true staleHandler toySem_lawful (by simp [staleHandler, KnownS, Known])
    (by simp [staleHandler, WellPlaced, Placed, loopAllow]))

/-! ### Examples -/

/-- `while a { try { if b { return c } while d { break } } catch const e { continue } }` is safe: the jumps do not leave a block of a
`try`. -/
def c60Ex : Stmt := .while (.leaf 1 none) (.tryCatch (.seq (.ite (.leaf 0 none) (.ret 2)) (.seq (.while (.leaf 1 none) (.jump .brk)) (.throw 4)))
  (.seq (.act 9) (.ret 3)))

example : SafeBody c60Ex := by
  simp [c60Ex, SafeBody, Safe, Straight, loopWant, inLoop, landed]

example : exec toySem 3 c60Ex [] () = some (.ret 3, ()) ∧ run toySem (compFun true c60Ex).prog 30 ⟨0, fun _ => 0, none, ()⟩ = some (.ret 3, ()) := by
  decide +kernel

/-- Also safe: leaving a `try` by `break`, if there is a `try` around the loop. -/
example : SafeBody (.tryCatch (.seq (.while (.leaf 1 none) (.tryCatch (.jump .brk) (.ret 7))) (.throw 5)) (.ret 8)) := by
  simp [SafeBody, Safe, Straight, loopWant, inLoop, landed]

/-- The counterexamples are not safe. -/
example : ¬ SafeBody staleHandler ∧ ¬ SafeBody switchHandler ∧ ¬ SafeBody deferHandler := by
  simp [SafeBody, Safe, SafeCases, staleHandler, switchHandler, deferHandler, loopWant, caseWant, deferWant, inLoop, landed, Cases.isNil]

end Verif.Ctl
