/-
  C79: threads stop for a garbage collection and go on after it.
-/
import Verif.Stop.Ends

namespace Verif.Stop

/-- What a thread does with the objects of the heap: runs a program; marks or
    updates together with other threads; or works on roots, moves objects and
    changes the lists of pages, for which it has to be alone. -/
inductive Use
  | program | together | alone
deriving DecidableEq

def use : Pc → Option Use
  | .run | .allocA | .allocM | .c2 | .c3 => some .program
  | .hWalk _ | .cWalk _ => some .together
  | .c6 | .cEvac | .cEvA | .c10 | .c10b | .c11 => some .alone
  | _ => none

/-- No assertion of the code fails, whatever the threads do in which order. -/
theorem C79_asserts (s : S) (h : Reach s) (t : Nat) (a : Act) : next t a s ≠ .bad := by
  obtain ⟨k, h⟩ := reach_inv h
  have := good_next h t a
  intro e
  rw [e] at this
  exact this

theorem use_program {x : Pc} (h : use x = some .program) : quiet x = false ∧ helping x = false ∧ past x = false := by
  cases x <;> simp_all [use, quiet, helping, past]

theorem use_together {x : Pc} (h : use x = some .together) : helping x = true ∨ ∃ p, x = .cWalk p := by
  cases x <;> simp_all [use, helping]

theorem use_alone {x : Pc} (h : use x = some .alone) : past x = true ∧ inWalk x = false := by
  cases x <;> simp_all [use, inWalk, past]

/-- Two threads use the heap at the same time only if both run programs, or if
    both mark, or if both update. -/
theorem C79_exclusive (s : S) (h : Reach s) (t u : Nat) (htu : t ≠ u) (a b : Use) (ha : use (s.pc t) = some a)
    (hb : use (s.pc u) = some b) : a = b ∧ a ≠ .alone := by
  obtain ⟨k, h⟩ := reach_inv h
  have key : ∀ {t u : Nat}, t ≠ u → ∀ b, use (s.pc t) = some .alone → use (s.pc u) = some b → False := by
    intro t u htu b ha hb
    obtain ⟨a1, a2⟩ := use_alone ha
    have e := ((h.col t).1 (r_isPast _ a1)).2
    subst e
    have q := h.stop a1 u (fun e => htu e.symm)
    cases b with
    | program => rw [(use_program hb).1] at q; cases q
    | together =>
      rcases use_together hb with e | ⟨p, e⟩
      · rw [h.ws u e] at a2; cases a2
      · rw [e] at q; cases p <;> cases q
    | alone =>
      have := ((h.col u).1 (r_isPast _ (use_alone hb).1)).2
      exact htu this.symm
  have key2 : ∀ {t u : Nat}, t ≠ u → use (s.pc t) = some .program → use (s.pc u) = some .together → False := by
    intro t u htu ha hb
    obtain ⟨a1, a2, a3⟩ := use_program ha
    have hw : inWalk (s.pc k) = true := by
      rcases use_together hb with e | ⟨p, e⟩
      · exact h.ws u e
      · have := ((h.col u).1 (by rw [e]; cases p <;> rfl)).2
        subst this
        rw [e]; cases p <;> rfl
    have hpast : past (s.pc k) = true := by
      revert hw
      cases s.pc k <;> simp [inWalk, past]
      all_goals (try (rename_i p; cases p <;> simp [past]))
      all_goals (try (rename_i p _; cases p <;> simp [past]))
    by_cases e : t = k
    · subst e; rw [a3] at hpast; cases hpast
    · rw [h.stop hpast t e] at a1; cases a1
  cases a with
  | alone => exact (key htu b ha hb).elim
  | program =>
    cases b with
    | program => exact ⟨rfl, by simp⟩
    | together => exact (key2 htu ha hb).elim
    | alone => exact (key (Ne.symm htu) _ hb ha).elim
  | together =>
    cases b with
    | program => exact (key2 (Ne.symm htu) hb ha).elim
    | together => exact ⟨rfl, by simp⟩
    | alone => exact (key (Ne.symm htu) _ hb ha).elim

/-- While objects are marked, moved or updated no other thread has a page. -/
theorem C79_pages (s : S) (h : Reach s) (hs : s.st = .mark ∨ s.st = .evac ∨ s.st = .update) :
    ∃ k, ∀ t ∈ s.ctxs, t ≠ k → s.page t = false := by
  obtain ⟨k, h⟩ := reach_inv h
  refine ⟨k, fun t ht hk => ?_⟩
  have hst : s.st ≠ .inactive ∧ s.st ≠ .init := by grind
  have hp := r_past _ _ (h.ph hst.1) hst.2 hst.1
  have q := h.stop hp t hk
  have hl := (h.link t).1 ht
  cases e : s.page t
  · rfl
  · exfalso
    have m := h.page t hl e
    revert m q
    cases s.pc t <;> simp [mayPage, quiet]
    all_goals (try (rename_i w; cases w <;> simp [mayPage, quiet]))
    all_goals (try (rename_i w _; cases w <;> simp [mayPage, quiet]))

/-- After a collection no thread waits: all were woken up. -/
theorem C79_woken (s : S) (h : Reach s) (hs : s.st = .inactive) (t : Nat) :
    (∀ w b, s.pc t = .hWait w b → b = true) ∧ (∀ b, s.pc t ≠ .cWait b) ∧ (∀ p b, s.pc t ≠ .cWW p b) := by
  obtain ⟨k, h⟩ := reach_inv h
  refine ⟨?_, ?_, ?_⟩
  · intro w b e
    cases b
    · exact absurd hs (h.hw t w e)
    · rfl
  · intro b e
    exact ((h.col t).1 (by rw [e]; rfl)).1 hs
  · intro p b e
    exact ((h.col t).1 (by rw [e]; cases p <;> rfl)).1 hs

/-- While a collection is in progress some thread can go on, without being woken
    up by chance, and brings the collection nearer to its end: there is a number
    which gets smaller.  If this is a thread which runs a program, its flag of
    events is set, so it comes to kos_help_gc. -/
theorem C79_progress (s : S) (h : Reach s) (hs : s.st ≠ .inactive) :
    ∃ t a s', next t a s = .ok s' ∧ a ≠ .spurious ∧ (s'.st = .inactive ∨ dist s' < dist s) ∧
      s.pc t ≠ .susp ∧ s.pc t ≠ .out ∧ (s.pc t = .run → a = .help ∧ s.ev t = true) := by
  obtain ⟨k, h⟩ := reach_inv h
  exact ends_step h hs

/-- Whatever happened before, a collection can be brought to its end: no state is
    a dead end. -/
theorem C79_ends (s : S) (h : Reach s) : ∃ s', Steps s s' ∧ s'.st = .inactive :=
  ends (dist s) s (reach_inv h) (Nat.le_refl _)

/-- While the collector waits for other threads, all of them are told; when no
    collection is in progress, none is. -/
theorem C79_told (s : S) (h : Reach s) (t : Nat) (ht : t ∈ s.ctxs) :
    ((∃ k b, s.pc k = .cWait b) → s.ev t = true) ∧ (s.st = .inactive → s.ev t = false) := by
  obtain ⟨k, h⟩ := reach_inv h
  rw [h.ev t ht]
  refine ⟨?_, ?_⟩
  · rintro ⟨u, b, e⟩
    have := ((h.col u).1 (by rw [e]; rfl)).2
    subst this
    exact h.ev1 (by rw [e]; rfl)
  · intro e
    refine h.ev0 ?_
    cases e' : told (s.pc k)
    · rfl
    · exact absurd e ((h.col k).1 (r_told _ e')).1

/-- At most one thread collects. -/
theorem C79_one (s : S) (h : Reach s) (t u : Nat) (ht : s.gc t = .engaged ∧ use (s.pc t) = some .alone)
    (hu : s.gc u = .engaged ∧ use (s.pc u) = some .alone) : t = u := by
  by_cases e : t = u
  · exact e
  · exact absurd rfl (C79_exclusive s h t u e _ _ ht.2 hu.2).2

/-! Examples -/

/-- The state after some steps. -/
def exec (l : List (Nat × Act)) (s : S) : Option S :=
  match l with
  | [] => some s
  | (t, a) :: r =>
    match next t a s with
    | .ok s' => exec r s'
    | _ => none

theorem exec_reach : ∀ l (s s' : S), Reach s → exec l s = some s' → Reach s'
  | [], s, s', h, e => by cases e; exact h
  | (t, a) :: r, s, s', h, e => by
    unfold exec at e
    split at e
    · rename_i q hq; exact exec_reach r q s' (.step t a h hq) e
    · cases e

/-- Thread 1 starts; the main thread collects while thread 1 runs. -/
def C79_start : List (Nat × Act) :=
  [(1, .link), (1, .resume), (1, .go), (1, .lock), (1, .page), (1, .go), (0, .collect), (0, .go), (0, .go), (0, .go),
   (0, .go), (0, .go)]

/-- Thread 1 helps, and helps to mark. -/
def C79_help : List (Nat × Act) :=
  [(1, .help), (1, .go), (1, .go), (1, .go), (0, .go), (0, .go), (0, .go), (0, .go), (1, .go), (1, .go), (1, .go)]

/-- The rest of the collection. -/
def C79_rest : List (Nat × Act) :=
  [(0, .go), (0, .go), (1, .go), (1, .go), (0, .go), (0, .go), (0, .go), (0, .go), (0, .go), (0, .last), (0, .go), (0, .go), (0, .go),
   (0, .go), (0, .go), (1, .go), (1, .go), (1, .go)]

-- the main thread waits, thread 1 has a page and was told
example : ((exec C79_start .init).map fun s => (s.pc 0, s.pc 1, s.page 1, s.ev 1, s.toStop)) =
    some (.cWait false, .run, true, true, 1) := by rfl
-- both mark
example : ((exec (C79_start ++ C79_help) .init).map fun s => (s.pc 0, s.pc 1, s.page 1, s.walk, s.st)) =
    some (.cWalk .mark, .hWalk .plain, false, 2, .mark) := by rfl
-- the collector waits for the helper, both go on in the end
example : ((exec (C79_start ++ C79_help ++ C79_rest) .init).map fun s => (s.pc 0, s.pc 1, s.walk, s.st, s.ev 1)) =
    some (.run, .run, 0, .inactive, false) := by rfl

-- without the check for pages, the assertion would be reachable
example : (next 0 .go { S.init with pc := upd S.init.pc 0 .c5, gc := upd S.init.gc 0 .engaged, page := fun _ => true }) = .bad := by rfl

end Verif.Stop
