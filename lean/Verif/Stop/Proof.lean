/-
  What holds in all states which can be reached.
-/
import Verif.Stop.Model

namespace Verif.Stop

/-- Holds the mutex. -/
@[grind =] def owns : Pc → Bool
  | .out | .run | .susp | .lHelp | .hWait _ _ | .hWalk _ | .cWait _ | .cWalk .mark | .cWalk .upd
  | .cWW .mark _ | .cWW .upd _ | .cEvac => false
  | .allocA | .allocM | .suspM | .resM | .collM | .h0 .plain | .h0 .alloc | .h0 .resume | .h2 _
  | .hEnd _ | .hChk _ | .hRet .plain | .hRet .alloc | .hRet .resume | .c2 | .c3 | .c4 | .c5 | .c6
  | .c7 | .c8 .mark | .c8 .upd | .c9 | .cEvA | .c10 | .c10b | .c11 | .cEnd | .cFin => true

/-- The value of `ctx->gc_state`. -/
@[grind =] def gcOf : Pc → Gc
  | .out | .run | .lHelp | .allocA | .allocM | .suspM | .collM | .h0 .plain | .h0 .alloc
  | .h0 .resume | .hRet .plain | .hRet .alloc | .hRet .resume | .c2 | .c3 => .inactive
  | .susp | .resM => .suspended
  | .h2 _ | .hWait _ _ | .hWalk _ | .hEnd _ | .hChk _ | .c4 | .c5 | .cWait _ | .c6 | .c7
  | .cWalk .mark | .cWalk .upd | .c8 .mark | .c8 .upd | .cWW .mark _ | .cWW .upd _ | .c9 | .cEvac
  | .cEvA | .c10 | .c10b | .c11 | .cEnd | .cFin => .engaged

/-- Collects. -/
@[grind =] def isCol : Pc → Bool
  | .out | .run | .susp | .lHelp | .allocA | .allocM | .suspM | .resM | .collM | .h0 .plain
  | .h0 .alloc | .h0 .resume | .h2 _ | .hWait _ _ | .hWalk _ | .hEnd _ | .hChk _ | .hRet .plain
  | .hRet .alloc | .hRet .resume => false
  | .c2 | .c3 | .c4 | .c5 | .cWait _ | .c6 | .c7 | .cWalk .mark | .cWalk .upd | .c8 .mark
  | .c8 .upd | .cWW .mark _ | .cWW .upd _ | .c9 | .cEvac | .cEvA | .c10 | .c10b | .c11 | .cEnd
  | .cFin => true

/-- `heap->gc_state` while a collector is here. -/
@[grind =] def phase (h : Hs) : Pc → Bool
  | .out | .run | .susp | .lHelp | .allocA | .allocM | .suspM | .resM | .collM | .h0 .plain
  | .h0 .alloc | .h0 .resume | .h2 _ | .hWait _ _ | .hWalk _ | .hEnd _ | .hChk _ | .hRet .plain
  | .hRet .alloc | .hRet .resume => false
  | .c2 | .c3 | .c4 | .c5 | .cWait _ | .c6 => decide (h = .init)
  | .c7 | .cWalk .mark | .c8 .mark | .cWW .mark _ | .c9 => decide (h = .mark)
  | .cWalk .upd | .c8 .upd | .cWW .upd _ | .c10b | .c11 => decide (h = .update)
  | .cEvac | .cEvA | .c10 => decide (h = .evac)
  | .cEnd | .cFin => decide (h ≠ .inactive)

/-- All other threads have stopped. -/
@[grind =] def past : Pc → Bool
  | .out | .run | .susp | .lHelp | .allocA | .allocM | .suspM | .resM | .collM | .h0 .plain
  | .h0 .alloc | .h0 .resume | .h2 _ | .hWait _ _ | .hWalk _ | .hEnd _ | .hChk _ | .hRet .plain
  | .hRet .alloc | .hRet .resume | .c2 | .c3 | .c4 | .c5 | .cWait _ => false
  | .c6 | .c7 | .cWalk .mark | .cWalk .upd | .c8 .mark | .c8 .upd | .cWW .mark _ | .cWW .upd _
  | .c9 | .cEvac | .cEvA | .c10 | .c10b | .c11 | .cEnd | .cFin => true

/-- Has stopped. -/
@[grind =] def quiet : Pc → Bool
  | .out | .susp | .resM | .h0 .resume | .h2 _ | .hWait _ _ | .hWalk _ | .hEnd _ | .hChk _ => true
  | .run | .lHelp | .allocA | .allocM | .suspM | .collM | .h0 .plain | .h0 .alloc | .hRet .plain
  | .hRet .alloc | .hRet .resume | .c2 | .c3 | .c4 | .c5 | .cWait _ | .c6 | .c7 | .cWalk .mark
  | .cWalk .upd | .c8 .mark | .c8 .upd | .cWW .mark _ | .cWW .upd _ | .c9 | .cEvac | .cEvA | .c10
  | .c10b | .c11 | .cEnd | .cFin => false

/-- May have a page. -/
@[grind =] def mayPage : Pc → Bool
  | .out | .susp | .resM | .h0 .resume | .h2 _ | .hWait _ _ | .hWalk _ | .hEnd _ | .hChk _
  | .hRet .alloc | .hRet .resume | .c4 | .c5 | .cWait _ | .c6 | .c7 | .cWalk .mark | .cWalk .upd
  | .c8 .mark | .c8 .upd | .cWW .mark _ | .cWW .upd _ | .c9 | .c10 | .c10b | .c11 | .cEnd | .cFin => false
  | .run | .lHelp | .allocA | .allocM | .suspM | .collM | .h0 .plain | .h0 .alloc | .hRet .plain
  | .c2 | .c3 | .cEvac | .cEvA => true

/-- Counts in `heap->walk_threads`. -/
@[grind =] def walking : Pc → Bool
  | .out | .run | .susp | .lHelp | .allocA | .allocM | .suspM | .resM | .collM | .h0 .plain
  | .h0 .alloc | .h0 .resume | .h2 _ | .hWait _ _ | .hChk _ | .hRet .plain | .hRet .alloc
  | .hRet .resume | .c2 | .c3 | .c4 | .c5 | .cWait _ | .c6 | .c7 | .cWW .mark _ | .cWW .upd _ | .c9
  | .cEvac | .cEvA | .c10 | .c10b | .c11 | .cEnd | .cFin => false
  | .hWalk _ | .hEnd _ | .cWalk .mark | .cWalk .upd | .c8 .mark | .c8 .upd => true

/-- A helper which counts in `heap->walk_threads`. -/
@[grind =] def helping : Pc → Bool
  | .out | .run | .susp | .lHelp | .allocA | .allocM | .suspM | .resM | .collM | .h0 .plain
  | .h0 .alloc | .h0 .resume | .h2 _ | .hWait _ _ | .hChk _ | .hRet .plain | .hRet .alloc
  | .hRet .resume | .c2 | .c3 | .c4 | .c5 | .cWait _ | .c6 | .c7 | .cWalk .mark | .cWalk .upd
  | .c8 .mark | .c8 .upd | .cWW .mark _ | .cWW .upd _ | .c9 | .cEvac | .cEvA | .c10 | .c10b | .c11
  | .cEnd | .cFin => false
  | .hWalk _ | .hEnd _ => true

/-- The collector walks or waits for helpers. -/
@[grind =] def inWalk : Pc → Bool
  | .out | .run | .susp | .lHelp | .allocA | .allocM | .suspM | .resM | .collM | .h0 .plain
  | .h0 .alloc | .h0 .resume | .h2 _ | .hWait _ _ | .hWalk _ | .hEnd _ | .hChk _ | .hRet .plain
  | .hRet .alloc | .hRet .resume | .c2 | .c3 | .c4 | .c5 | .cWait _ | .c6 | .c7 | .c9 | .cEvac
  | .cEvA | .c10 | .c10b | .c11 | .cEnd | .cFin => false
  | .cWalk .mark | .cWalk .upd | .c8 .mark | .c8 .upd | .cWW .mark _ | .cWW .upd _ => true

/-- The flags of events are set. -/
@[grind =] def told : Pc → Bool
  | .out | .run | .susp | .lHelp | .allocA | .allocM | .suspM | .resM | .collM | .h0 .plain
  | .h0 .alloc | .h0 .resume | .h2 _ | .hWait _ _ | .hWalk _ | .hEnd _ | .hChk _ | .hRet .plain
  | .hRet .alloc | .hRet .resume | .c2 | .cFin => false
  | .c3 | .c4 | .c5 | .cWait _ | .c6 | .c7 | .cWalk .mark | .cWalk .upd | .c8 .mark | .c8 .upd
  | .cWW .mark _ | .cWW .upd _ | .c9 | .cEvac | .cEvA | .c10 | .c10b | .c11 | .cEnd => true

/-- The collector waits for other threads to stop. -/
@[grind =] def isWait : Pc → Bool
  | .out | .run | .susp | .lHelp | .allocA | .allocM | .suspM | .resM | .collM | .h0 .plain
  | .h0 .alloc | .h0 .resume | .h2 _ | .hWait _ _ | .hWalk _ | .hEnd _ | .hChk _ | .hRet .plain
  | .hRet .alloc | .hRet .resume | .c2 | .c3 | .c4 | .c6 | .c7 | .cWalk .mark | .cWalk .upd
  | .c8 .mark | .c8 .upd | .cWW .mark _ | .cWW .upd _ | .c9 | .cEvac | .cEvA | .c10 | .c10b | .c11
  | .cEnd | .cFin => false
  | .c5 | .cWait _ => true

/-- Not registered. -/
@[grind =] def isOut : Pc → Bool
  | .out => true
  | .run | .susp | .lHelp | .allocA | .allocM | .suspM | .resM | .collM | .h0 .plain | .h0 .alloc
  | .h0 .resume | .h2 _ | .hWait _ _ | .hWalk _ | .hEnd _ | .hChk _ | .hRet .plain | .hRet .alloc
  | .hRet .resume | .c2 | .c3 | .c4 | .c5 | .cWait _ | .c6 | .c7 | .cWalk .mark | .cWalk .upd
  | .c8 .mark | .c8 .upd | .cWW .mark _ | .cWW .upd _ | .c9 | .cEvac | .cEvA | .c10 | .c10b | .c11
  | .cEnd | .cFin => false

/-- There is a collection in progress. -/
@[grind =] def needs : Pc → Bool
  | .out | .run | .susp | .lHelp | .allocA | .allocM | .suspM | .resM | .collM | .h0 .plain
  | .h0 .resume | .hWait _ _ | .hWalk _ | .hEnd _ | .hChk _ | .hRet .plain | .hRet .alloc
  | .hRet .resume | .c2 | .c3 | .c4 | .c5 | .cWait _ | .c6 | .c7 | .cWalk .mark | .cWalk .upd
  | .c8 .mark | .c8 .upd | .cWW .mark _ | .cWW .upd _ | .c9 | .cEvac | .cEvA | .c10 | .c10b | .c11
  | .cEnd | .cFin => false
  | .h0 .alloc | .h2 _ => true

def walkers (l : List Nat) (pc : Nat → Pc) : Nat := l.countP (fun t => walking (pc t))
def runners (l : List Nat) (pc : Nat → Pc) : Nat := l.countP (fun t => gcOf (pc t) = .inactive)

/-- What holds in all states which can be reached; `k` is the collector, if there
    is one. -/
structure Inv (k : Nat) (s : S) : Prop where
  own : ∀ t, s.owner = some t ↔ owns (s.pc t) = true
  link : ∀ t, t ∈ s.ctxs ↔ s.pc t ≠ .out
  nodup : s.ctxs.Nodup
  main : 0 ∈ s.ctxs
  gc : ∀ t, s.pc t ≠ .out → s.gc t = gcOf (s.pc t)
  col : ∀ t, isCol (s.pc t) = true ↔ s.st ≠ .inactive ∧ t = k
  ph : s.st ≠ .inactive → phase s.st (s.pc k) = true
  stop : past (s.pc k) = true → ∀ t, t ≠ k → quiet (s.pc t) = true
  page : ∀ t, s.pc t ≠ .out → s.page t = true → mayPage (s.pc t) = true
  h0a : ∀ t, needs (s.pc t) = true → s.st ≠ .inactive
  eng : s.toStop ≠ 0 → isWait (s.pc k) = true
  eng1 : s.pc k = .cWait false → 1 ≤ s.toStop ∧ s.toStop ≤ runners s.ctxs s.pc
  walk : s.walk = walkers s.ctxs s.pc
  ww : ∀ p, s.pc k = .cWW p false → 0 < s.walk
  ws : ∀ t, helping (s.pc t) = true → inWalk (s.pc k) = true
  pg : s.pages = true → s.pc k = .cWalk .upd
  ev : ∀ t ∈ s.ctxs, s.ev t = s.ev 0
  ev1 : told (s.pc k) = true → s.ev 0 = true
  ev0 : told (s.pc k) = false → s.ev 0 = false
  hw : ∀ t w, s.pc t = .hWait w false → s.st ≠ .inactive

@[grind =] theorem upd_apply {α : Type} (f : Nat → α) (k j : Nat) (x : α) :
    upd f k x j = if j = k then x else f j := rfl

theorem init_inv : Inv 0 S.init := by
  constructor <;> simp [S.init, walkers, runners] <;> intros <;> grind

theorem countP_upd {α : Type} (p : α → Bool) (f : Nat → α) (x : α) (t : Nat) : ∀ l : List Nat, l.Nodup → t ∈ l →
    l.countP (fun u => p (upd f t x u)) + (p (f t)).toNat = l.countP (fun u => p (f u)) + (p x).toNat := by
  intro l
  induction l with
  | nil => intro _ h; cases h
  | cons a r ih =>
    intro hn hm
    rw [List.countP_cons, List.countP_cons]
    obtain ⟨h1, h2⟩ := List.nodup_cons.1 hn
    rcases List.mem_cons.1 hm with rfl | hm
    · have : r.countP (fun u => p (upd f t x u)) = r.countP (fun u => p (f u)) := by
        apply List.countP_congr
        intro y hy
        have : y ≠ t := fun e => h1 (e ▸ hy)
        simp [upd, this]
      rw [this]
      simp only [upd, if_true]
      cases p x <;> cases p (f t) <;> simp <;> omega
    · have := ih h2 hm
      have hat : a ≠ t := fun e => h1 (e ▸ hm)
      simp only [upd, hat, if_false] at this ⊢
      omega

theorem walkers_upd {pc : Nat → Pc} {l : List Nat} {t : Nat} (x : Pc) (hn : l.Nodup) (hm : t ∈ l) :
    walkers l (upd pc t x) + (walking (pc t)).toNat = walkers l pc + (walking x).toNat :=
  countP_upd walking pc x t l hn hm

theorem runners_upd {pc : Nat → Pc} {l : List Nat} {t : Nat} (x : Pc) (hn : l.Nodup) (hm : t ∈ l) :
    runners l (upd pc t x) + (decide (gcOf (pc t) = .inactive)).toNat =
      runners l pc + (decide (gcOf x = .inactive)).toNat :=
  countP_upd (fun x => decide (gcOf x = .inactive)) pc x t l hn hm

theorem walkers_map {pc : Nat → Pc} {l : List Nat} (f : Pc → Pc) (h : ∀ x, walking (f x) = walking x) :
    walkers l (fun t => f (pc t)) = walkers l pc := by
  unfold walkers; simp only [h]

theorem runners_map {pc : Nat → Pc} {l : List Nat} (f : Pc → Pc) (h : ∀ x, gcOf (f x) = gcOf x) :
    runners l (fun t => f (pc t)) = runners l pc := by
  unfold runners; simp only [h]

/-- Nobody walks if the counter is 0. -/
theorem walkers_zero {pc : Nat → Pc} {l : List Nat} (h : walkers l pc = 0) : ∀ t ∈ l, walking (pc t) = false := by
  unfold walkers at h
  rw [List.countP_eq_zero] at h
  intro t ht
  simpa using h t ht

theorem walkers_none {pc : Nat → Pc} {l : List Nat} (h : ∀ t ∈ l, walking (pc t) = false) : walkers l pc = 0 := by
  unfold walkers
  rw [List.countP_eq_zero]
  intro t ht
  simp [h t ht]

theorem runners_pos {pc : Nat → Pc} {l : List Nat} (h : 0 < runners l pc) :
    ∃ t ∈ l, gcOf (pc t) = .inactive := by
  unfold runners at h
  rw [List.countP_pos_iff] at h
  simpa using h

variable {k : Nat} {s s' : S} {t : Nat}


macro "finish" h:ident : tactic => `(tactic| (
  constructor
  case own => have := ($h).own; grind
  case link => have := ($h).link; grind
  case nodup => exact ($h).nodup
  case main => exact ($h).main
  case gc => have := ($h).gc; grind
  case col => have := ($h).col; grind
  case ph => have := ($h).ph; grind
  case stop => have := ($h).stop; grind
  case page => have := ($h).page; grind
  case h0a => have := ($h).h0a; grind
  case eng => have := ($h).eng; grind
  case eng1 => have := ($h).eng1; grind
  case walk => have := ($h).walk; grind
  case ww => have := ($h).ww; grind
  case ws => have := ($h).ws; grind
  case pg => have := ($h).pg; grind
  case ev => have := ($h).ev; grind
  case ev1 => have := ($h).ev1; grind
  case ev0 => have := ($h).ev0; grind
  case hw => have := ($h).hw; grind))


/-- No assertion fails, and the invariant holds afterwards. -/
def Good (r : Res) : Prop :=
  match r with
  | .no => True
  | .bad => False
  | .ok s => ∃ k, Inv k s

theorem linked (h : Inv k s) (x : Pc) (hp : s.pc t = x) (hx : x ≠ .out) : t ∈ s.ctxs :=
  (h.link t).2 (by rw [hp]; exact hx)

theorem good_check {b : Bool} {r : Res} (hb : b = true) (hr : Good r) : Good (check b r) := by
  subst hb; exact hr

theorem wk (h : Inv k s) {x : Pc} (y : Pc) (hp : s.pc t = x) (hx : x ≠ .out) :
    walkers s.ctxs (upd s.pc t y) + (walking x).toNat = walkers s.ctxs s.pc + (walking y).toNat := by
  have := walkers_upd (pc := s.pc) y h.nodup (linked h x hp hx)
  rwa [hp] at this

theorem rn (h : Inv k s) {x : Pc} (y : Pc) (hp : s.pc t = x) (hx : x ≠ .out) :
    runners s.ctxs (upd s.pc t y) + (decide (gcOf x = .inactive)).toNat =
      runners s.ctxs s.pc + (decide (gcOf y = .inactive)).toNat := by
  have := runners_upd (pc := s.pc) y h.nodup (linked h x hp hx)
  rwa [hp] at this

theorem r_gc (x : Pc) : gcOf x ≠ .inactive → isCol x = false → quiet x = true := by
  cases x <;> simp [gcOf, isCol, quiet]
  all_goals (try (rename_i a; cases a <;> simp [gcOf, isCol, quiet]))
  all_goals (try (rename_i a b; cases a <;> simp [gcOf, isCol, quiet]))

theorem r_qs (x : Pc) : quiet x = true → owns x = false → gcOf x ≠ .inactive ∨ x = .out := by
  cases x <;> simp [gcOf, owns, quiet]
  all_goals (try (rename_i a; cases a <;> simp [gcOf, owns, quiet]))
  all_goals (try (rename_i a b; cases a <;> simp [gcOf, owns, quiet]))

theorem r_page (x : Pc) : mayPage x = true → gcOf x ≠ .inactive → isCol x = true ∧ past x = true := by
  cases x <;> simp [gcOf, isCol, mayPage, past]
  all_goals (try (rename_i a; cases a <;> simp [gcOf, isCol, mayPage, past]))
  all_goals (try (rename_i a b; cases a <;> simp [gcOf, isCol, mayPage, past]))

theorem r_walk (x : Pc) : walking x = true → helping x = true ∨ isCol x = true ∧ inWalk x = true := by
  cases x <;> simp [walking, isCol, helping, inWalk]
  all_goals (try (rename_i a; cases a <;> simp [walking, isCol, helping, inWalk]))
  all_goals (try (rename_i a b; cases a <;> simp [walking, isCol, helping, inWalk]))

theorem r_help (x : Pc) : helping x = true → walking x = true ∧ isCol x = false := by
  cases x <;> simp [walking, isCol, helping]
  all_goals (try (rename_i a; cases a <;> simp [walking, isCol, helping]))
  all_goals (try (rename_i a b; cases a <;> simp [walking, isCol, helping]))

theorem r_init (x : Pc) : phase .init x = true → owns x = false → ∃ b, x = .cWait b := by
  cases x <;> simp [phase, owns]
  all_goals (try (rename_i a; cases a <;> simp [phase, owns]))
  all_goals (try (rename_i a b; cases a <;> simp [phase, owns]))

theorem r_mark (x : Pc) : phase .mark x = true → owns x = false → inWalk x = true := by
  cases x <;> simp [phase, owns, inWalk]
  all_goals (try (rename_i a; cases a <;> simp [phase, owns, inWalk]))
  all_goals (try (rename_i a b; cases a <;> simp [phase, owns, inWalk]))

theorem r_update (x : Pc) : phase .update x = true → owns x = false → inWalk x = true := by
  cases x <;> simp [phase, owns, inWalk]
  all_goals (try (rename_i a; cases a <;> simp [phase, owns, inWalk]))
  all_goals (try (rename_i a b; cases a <;> simp [phase, owns, inWalk]))

theorem r_past (x : Pc) (g : Hs) : phase g x = true → g ≠ .init → g ≠ .inactive → past x = true := by
  cases x <;> simp [phase, past]
  all_goals (try (rename_i a; cases a <;> simp [phase, past]))
  all_goals (try (rename_i a b; cases a <;> simp [phase, past]))
  all_goals grind

theorem r_wait (x : Pc) (g : Hs) : phase g x = true → isWait x = true → g = .init := by
  cases x <;> simp [phase, isWait]
  all_goals (try (rename_i a; cases a <;> simp [phase, isWait]))
  all_goals (try (rename_i a b; cases a <;> simp [phase, isWait]))

theorem r_told (x : Pc) : told x = true → isCol x = true := by
  cases x <;> simp [told, isCol]
  all_goals (try (rename_i a; cases a <;> simp [told, isCol]))
  all_goals (try (rename_i a b; cases a <;> simp [told, isCol]))

theorem r_isWait (x : Pc) : isWait x = true → isCol x = true := by
  cases x <;> simp [isWait, isCol]
  all_goals (try (rename_i a; cases a <;> simp [isWait, isCol]))
  all_goals (try (rename_i a b; cases a <;> simp [isWait, isCol]))

theorem r_isPast (x : Pc) : past x = true → isCol x = true := by
  cases x <;> simp [past, isCol]
  all_goals (try (rename_i a; cases a <;> simp [past, isCol]))
  all_goals (try (rename_i a b; cases a <;> simp [past, isCol]))

theorem r_inWalk (x : Pc) : inWalk x = true → isCol x = true := by
  cases x <;> simp [inWalk, isCol]
  all_goals (try (rename_i a; cases a <;> simp [inWalk, isCol]))
  all_goals (try (rename_i a b; cases a <;> simp [inWalk, isCol]))

/-- What is used about the thread and the collector. -/
theorem known (h : Inv k s) {x : Pc} (y : Pc) (hp : s.pc t = x) (hx : x ≠ .out) :
    (walkers s.ctxs (upd s.pc t y) + (walking x).toNat = walkers s.ctxs s.pc + (walking y).toNat) ∧
    (runners s.ctxs (upd s.pc t y) + (decide (gcOf x = .inactive)).toNat =
      runners s.ctxs s.pc + (decide (gcOf y = .inactive)).toNat) ∧
    (isCol (s.pc t) = true ↔ s.st ≠ .inactive ∧ t = k) ∧
    (isCol (s.pc k) = true ↔ s.st ≠ .inactive ∧ k = k) ∧
    (s.owner = some t ↔ owns (s.pc t) = true) ∧
    (s.owner = some k ↔ owns (s.pc k) = true) ∧
    (s.st ≠ .inactive → phase s.st (s.pc k) = true) ∧
    (past (s.pc k) = true → ∀ t, t ≠ k → quiet (s.pc t) = true) ∧
    (s.pc t ≠ .out → s.gc t = gcOf (s.pc t)) ∧
    (past (s.pc k) = true → isCol (s.pc k) = true) ∧
    (told (s.pc k) = true → isCol (s.pc k) = true) ∧
    (isWait (s.pc k) = true → isCol (s.pc k) = true) ∧
    (inWalk (s.pc k) = true → isCol (s.pc k) = true) :=
  ⟨wk h y hp hx, rn h y hp hx, h.col t, h.col k, h.own t, h.own k, h.ph, h.stop, h.gc t, r_isPast _, r_told _,
    r_isWait _, r_inWalk _⟩

theorem good_of (_ : Inv k s) (h' : Inv k s') : Good (.ok s') := ⟨k, h'⟩

macro "lock" h:ident hp:ident y:term : tactic => `(tactic| (
  unfold take
  split
  · rename_i ho
    obtain ⟨f1, f2, f3, f4, f5, f6, f7, f8, f9, f10, f11, f12, f13⟩ := known $h $y $hp (by simp)
    refine good_of $h ?_
    finish $h
  · trivial))

macro "move" h:ident hp:ident y:term : tactic => `(tactic| (
  obtain ⟨f1, f2, f3, f4, f5, f6, f7, f8, f9, f10, f11, f12, f13⟩ := known $h $y $hp (by simp)
  refine good_of $h ?_
  finish $h))

theorem g_allocA (h : Inv k s) (hp : s.pc t = .run) : Good (take t .allocA s) := by lock h hp .allocA
theorem g_allocM (h : Inv k s) (hp : s.pc t = .run) : Good (take t .allocM s) := by lock h hp .allocM
theorem g_suspM (h : Inv k s) (hp : s.pc t = .run) : Good (take t .suspM s) := by lock h hp .suspM
theorem g_collM (h : Inv k s) (hp : s.pc t = .run) : Good (take t .collM s) := by lock h hp .collM
theorem g_resM (h : Inv k s) (hp : s.pc t = .susp) : Good (take t .resM s) := by lock h hp .resM
theorem g_h0 (h : Inv k s) (hp : s.pc t = .lHelp) : Good (take t (.h0 .plain) s) := by lock h hp (.h0 .plain)
theorem g_hChk {w b} (h : Inv k s) (hp : s.pc t = .hWait w b) : Good (take t (.hChk w) s) := by lock h hp (.hChk w)
theorem g_hEnd {w} (h : Inv k s) (hp : s.pc t = .hWalk w) : Good (take t (.hEnd w) s) := by lock h hp (.hEnd w)
theorem g_c5 {b} (h : Inv k s) (hp : s.pc t = .cWait b) : Good (take t .c5 s) := by lock h hp .c5
theorem g_c8m (h : Inv k s) (hp : s.pc t = .cWalk .mark) : Good (take t (.c8 .mark) s) := by lock h hp (.c8 .mark)
theorem g_c8u (h : Inv k s) (hp : s.pc t = .cWalk .upd) (hpg : s.pages = false) : Good (take t (.c8 .upd) s) := by
  lock h hp (.c8 .upd)
theorem g_cEvA (h : Inv k s) (hp : s.pc t = .cEvac) : Good (take t .cEvA s) := by lock h hp .cEvA
theorem g_lHelp (h : Inv k s) (hp : s.pc t = .run) : Good (goto t .lHelp s) := by move h hp .lHelp
theorem g_h0a (h : Inv k s) (hp : s.pc t = .allocA) (hs : s.st ≠ .inactive) : Good (goto t (.h0 .alloc) s) := by
  move h hp (.h0 .alloc)
theorem g_alm (h : Inv k s) (hp : s.pc t = .allocA) : Good (goto t .allocM s) := by move h hp .allocM
theorem g_alr (h : Inv k s) (hp : s.pc t = .allocM) : Good (drop t .run s) := by move h hp .run
theorem g_c9 (h : Inv k s) (hp : s.pc t = .c9) : Good (drop t .cEvac { s with st := .evac }) := by move h hp .cEvac
theorem g_c9e (h : Inv k s) (hp : s.pc t = .c9) : Good (goto t .cEnd s) := by move h hp .cEnd
theorem g_cEv (h : Inv k s) (hp : s.pc t = .cEvA) : Good (drop t .cEvac s) := by move h hp .cEvac
theorem g_c10 (h : Inv k s) (hp : s.pc t = .c10) : Good (goto t .c10b { s with st := .update }) := by move h hp .c10b


/-! Signals. -/

@[grind =] theorem wakeEng_owns (x : Pc) : owns (wakeEng x) = owns x := by cases x <;> rfl
@[grind =] theorem wakeEng_gcOf (x : Pc) : gcOf (wakeEng x) = gcOf x := by cases x <;> rfl
@[grind =] theorem wakeEng_isCol (x : Pc) : isCol (wakeEng x) = isCol x := by cases x <;> rfl
@[grind =] theorem wakeEng_phase (x : Pc) (g : Hs) : phase g (wakeEng x) = phase g x := by cases x <;> rfl
@[grind =] theorem wakeEng_past (x : Pc) : past (wakeEng x) = past x := by cases x <;> rfl
@[grind =] theorem wakeEng_quiet (x : Pc) : quiet (wakeEng x) = quiet x := by cases x <;> rfl
@[grind =] theorem wakeEng_mayPage (x : Pc) : mayPage (wakeEng x) = mayPage x := by cases x <;> rfl
@[grind =] theorem wakeEng_walking (x : Pc) : walking (wakeEng x) = walking x := by cases x <;> rfl
@[grind =] theorem wakeEng_helping (x : Pc) : helping (wakeEng x) = helping x := by cases x <;> rfl
@[grind =] theorem wakeEng_inWalk (x : Pc) : inWalk (wakeEng x) = inWalk x := by cases x <;> rfl
@[grind =] theorem wakeEng_told (x : Pc) : told (wakeEng x) = told x := by cases x <;> rfl
@[grind =] theorem wakeEng_isWait (x : Pc) : isWait (wakeEng x) = isWait x := by cases x <;> rfl
theorem wakeEng_out (x : Pc) : wakeEng x = .out ↔ x = .out := by cases x <;> simp [wakeEng]
theorem wakeEng_h0 (x : Pc) : needs (wakeEng x) = needs x := by cases x <;> first | rfl | (rename_i a b; cases a <;> rfl)
theorem wakeEng_cW (x : Pc) : wakeEng x ≠ .cWait false := by cases x <;> simp [wakeEng]
theorem wakeEng_hW (x : Pc) (w b) : wakeEng x = .hWait w b ↔ x = .hWait w b := by cases x <;> simp [wakeEng]
theorem wakeEng_cWW (x : Pc) (p b) : wakeEng x = .cWW p b ↔ x = .cWW p b := by cases x <;> simp [wakeEng]
theorem wakeEng_cWalk (x : Pc) (p) : wakeEng x = .cWalk p ↔ x = .cWalk p := by cases x <;> simp [wakeEng]

theorem signalEng_inv (h : Inv k s) : Inv k (signalEng s) := by
  have kw := walkers_map (pc := s.pc) (l := s.ctxs) wakeEng wakeEng_walking
  unfold signalEng
  obtain ⟨i1, i2, i3, i4, i5, i6, i7, i8, i9, i10, i11, i12, i13, i14, i15, i16, i17, i18, i19, i20⟩ := h
  constructor <;> simp only [wakeEng_owns, wakeEng_gcOf, wakeEng_isCol, wakeEng_phase, wakeEng_past, wakeEng_quiet,
    wakeEng_mayPage, wakeEng_helping, wakeEng_inWalk, wakeEng_told, wakeEng_isWait, wakeEng_out, wakeEng_h0,
    wakeEng_hW, wakeEng_cWW, wakeEng_cWalk, ne_eq, kw] <;> try assumption
  exact fun e => absurd e (wakeEng_cW _)

@[grind =] theorem wakeWalk_owns (x : Pc) : owns (wakeWalk x) = owns x := by cases x <;> first | rfl | (rename_i a b; cases a <;> rfl)
@[grind =] theorem wakeWalk_gcOf (x : Pc) : gcOf (wakeWalk x) = gcOf x := by cases x <;> first | rfl | (rename_i a b; cases a <;> rfl)
@[grind =] theorem wakeWalk_isCol (x : Pc) : isCol (wakeWalk x) = isCol x := by cases x <;> first | rfl | (rename_i a b; cases a <;> rfl)
@[grind =] theorem wakeWalk_phase (x : Pc) (g : Hs) : phase g (wakeWalk x) = phase g x := by cases x <;> first | rfl | (rename_i a b; cases a <;> rfl)
@[grind =] theorem wakeWalk_past (x : Pc) : past (wakeWalk x) = past x := by cases x <;> first | rfl | (rename_i a b; cases a <;> rfl)
@[grind =] theorem wakeWalk_quiet (x : Pc) : quiet (wakeWalk x) = quiet x := by cases x <;> first | rfl | (rename_i a b; cases a <;> rfl)
@[grind =] theorem wakeWalk_mayPage (x : Pc) : mayPage (wakeWalk x) = mayPage x := by cases x <;> first | rfl | (rename_i a b; cases a <;> rfl)
@[grind =] theorem wakeWalk_walking (x : Pc) : walking (wakeWalk x) = walking x := by cases x <;> first | rfl | (rename_i a b; cases a <;> rfl)
@[grind =] theorem wakeWalk_helping (x : Pc) : helping (wakeWalk x) = helping x := by cases x <;> first | rfl | (rename_i a b; cases a <;> rfl)
@[grind =] theorem wakeWalk_inWalk (x : Pc) : inWalk (wakeWalk x) = inWalk x := by cases x <;> first | rfl | (rename_i a b; cases a <;> rfl)
@[grind =] theorem wakeWalk_told (x : Pc) : told (wakeWalk x) = told x := by cases x <;> first | rfl | (rename_i a b; cases a <;> rfl)
@[grind =] theorem wakeWalk_isWait (x : Pc) : isWait (wakeWalk x) = isWait x := by cases x <;> first | rfl | (rename_i a b; cases a <;> rfl)
theorem wakeWalk_out (x : Pc) : wakeWalk x = .out ↔ x = .out := by cases x <;> simp [wakeWalk]
theorem wakeWalk_h0 (x : Pc) : needs (wakeWalk x) = needs x := by cases x <;> first | rfl | (rename_i a b; cases a <;> rfl)
theorem wakeWalk_cWait (x : Pc) (b) : wakeWalk x = .cWait b ↔ x = .cWait b := by cases x <;> simp [wakeWalk]
theorem wakeWalk_hW (x : Pc) (w b) : wakeWalk x = .hWait w b ↔ x = .hWait w b := by cases x <;> simp [wakeWalk]
theorem wakeWalk_cWW (x : Pc) (p) : wakeWalk x ≠ .cWW p false := by cases x <;> simp [wakeWalk]
theorem wakeWalk_cWalk (x : Pc) (p) : wakeWalk x = .cWalk p ↔ x = .cWalk p := by cases x <;> simp [wakeWalk]

theorem signalWalk_inv (h : Inv k s) : Inv k (signalWalk s) := by
  have kw := walkers_map (pc := s.pc) (l := s.ctxs) wakeWalk wakeWalk_walking
  have kr := runners_map (pc := s.pc) (l := s.ctxs) wakeWalk wakeWalk_gcOf
  unfold signalWalk
  obtain ⟨i1, i2, i3, i4, i5, i6, i7, i8, i9, i10, i11, i12, i13, i14, i15, i16, i17, i18, i19, i20⟩ := h
  constructor <;> simp only [wakeWalk_owns, wakeWalk_gcOf, wakeWalk_isCol, wakeWalk_phase, wakeWalk_past, wakeWalk_quiet,
    wakeWalk_mayPage, wakeWalk_helping, wakeWalk_inWalk, wakeWalk_told, wakeWalk_isWait, wakeWalk_out, wakeWalk_h0,
    wakeWalk_hW, wakeWalk_cWait, wakeWalk_cWalk, ne_eq, kw, kr] <;> try assumption
  exact fun p e => absurd e (wakeWalk_cWW _ p)

@[grind =] theorem wakeHelper_owns (x : Pc) : owns (wakeHelper x) = owns x := by cases x <;> rfl
@[grind =] theorem wakeHelper_gcOf (x : Pc) : gcOf (wakeHelper x) = gcOf x := by cases x <;> rfl
@[grind =] theorem wakeHelper_isCol (x : Pc) : isCol (wakeHelper x) = isCol x := by cases x <;> rfl
@[grind =] theorem wakeHelper_phase (x : Pc) (g : Hs) : phase g (wakeHelper x) = phase g x := by cases x <;> rfl
@[grind =] theorem wakeHelper_past (x : Pc) : past (wakeHelper x) = past x := by cases x <;> rfl
@[grind =] theorem wakeHelper_quiet (x : Pc) : quiet (wakeHelper x) = quiet x := by cases x <;> rfl
@[grind =] theorem wakeHelper_mayPage (x : Pc) : mayPage (wakeHelper x) = mayPage x := by cases x <;> rfl
@[grind =] theorem wakeHelper_walking (x : Pc) : walking (wakeHelper x) = walking x := by cases x <;> rfl
@[grind =] theorem wakeHelper_helping (x : Pc) : helping (wakeHelper x) = helping x := by cases x <;> rfl
@[grind =] theorem wakeHelper_inWalk (x : Pc) : inWalk (wakeHelper x) = inWalk x := by cases x <;> rfl
@[grind =] theorem wakeHelper_told (x : Pc) : told (wakeHelper x) = told x := by cases x <;> rfl
@[grind =] theorem wakeHelper_isWait (x : Pc) : isWait (wakeHelper x) = isWait x := by cases x <;> rfl
theorem wakeHelper_out (x : Pc) : wakeHelper x = .out ↔ x = .out := by cases x <;> simp [wakeHelper]
theorem wakeHelper_h0 (x : Pc) : needs (wakeHelper x) = needs x := by cases x <;> first | rfl | (rename_i a b; cases a <;> rfl)
theorem wakeHelper_cWait (x : Pc) (b) : wakeHelper x = .cWait b ↔ x = .cWait b := by cases x <;> simp [wakeHelper]
theorem wakeHelper_hW (x : Pc) (w) : wakeHelper x ≠ .hWait w false := by cases x <;> simp [wakeHelper]
theorem wakeHelper_cWW (x : Pc) (p b) : wakeHelper x = .cWW p b ↔ x = .cWW p b := by cases x <;> simp [wakeHelper]
theorem wakeHelper_cWalk (x : Pc) (p) : wakeHelper x = .cWalk p ↔ x = .cWalk p := by cases x <;> simp [wakeHelper]

theorem broadcast_inv (h : Inv k s) : Inv k (broadcast s) := by
  have kw := walkers_map (pc := s.pc) (l := s.ctxs) wakeHelper wakeHelper_walking
  have kr := runners_map (pc := s.pc) (l := s.ctxs) wakeHelper wakeHelper_gcOf
  unfold broadcast
  obtain ⟨i1, i2, i3, i4, i5, i6, i7, i8, i9, i10, i11, i12, i13, i14, i15, i16, i17, i18, i19, i20⟩ := h
  constructor <;> simp only [wakeHelper_owns, wakeHelper_gcOf, wakeHelper_isCol, wakeHelper_phase, wakeHelper_past, wakeHelper_quiet,
    wakeHelper_mayPage, wakeHelper_helping, wakeHelper_inWalk, wakeHelper_told, wakeHelper_isWait, wakeHelper_out, wakeHelper_h0,
    wakeHelper_cWW, wakeHelper_cWait, wakeHelper_cWalk, ne_eq, kw, kr] <;> try assumption
  exact fun t w e => absurd e (wakeHelper_hW _ w)

end Verif.Stop
