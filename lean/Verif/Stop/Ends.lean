/-
  A collection which was started can always be brought to its end.
-/
import Verif.Stop.Collector

namespace Verif.Stop

variable {k : Nat} {s s' : S} {t : Nat}

/-- How far a thread is from the end of the collection. -/
def wt : Pc → Nat
  | .out => 0
  | .run => 10
  | .susp => 0
  | .lHelp => 9
  | .allocA => 9
  | .allocM => 11
  | .suspM => 5
  | .resM => 9
  | .collM => 9
  | .h0 _ => 8
  | .h2 _ => 7
  | .hWait _ _ => 4
  | .hWalk _ => 6
  | .hEnd _ => 5
  | .hChk _ => 8
  | .hRet _ => 12
  | .c2 => 25
  | .c3 => 24
  | .c4 => 23
  | .c5 => 20
  | .cWait _ => 21
  | .c6 => 19
  | .c7 => 18
  | .cWalk .mark => 17
  | .cWalk .upd => 9
  | .c8 .mark => 16
  | .c8 .upd => 8
  | .cWW .mark _ => 15
  | .cWW .upd _ => 7
  | .c9 => 14
  | .cEvac => 12
  | .cEvA => 13
  | .c10 => 11
  | .c10b => 10
  | .c11 => 6
  | .cEnd => 5
  | .cFin => 4

def tot (l : List Nat) (pc : Nat → Pc) : Nat := (l.map (fun t => wt (pc t))).sum

theorem tot_upd {pc : Nat → Pc} (x : Pc) (t : Nat) : ∀ l : List Nat, l.Nodup → t ∈ l →
    tot l (upd pc t x) + wt (pc t) = tot l pc + wt x := by
  intro l
  unfold tot
  induction l with
  | nil => intro _ h; cases h
  | cons a r ih =>
    intro hn hm
    rw [List.map_cons, List.map_cons, List.sum_cons, List.sum_cons]
    obtain ⟨h1, h2⟩ := List.nodup_cons.1 hn
    rcases List.mem_cons.1 hm with rfl | hm
    · have : r.map (fun u => wt (upd pc t x u)) = r.map (fun u => wt (pc u)) := by
        apply List.map_congr_left
        intro y hy
        have : y ≠ t := fun e => h1 (e ▸ hy)
        simp [upd, this]
      rw [this]
      simp only [upd, if_true]
      omega
    · have := ih h2 hm
      have hat : a ≠ t := fun e => h1 (e ▸ hm)
      have e : wt (upd pc t x a) = wt (pc a) := by simp [upd, hat]
      omega

theorem tot_map {pc : Nat → Pc} {l : List Nat} (f : Pc → Pc) (h : ∀ x, wt (f x) = wt x) :
    tot l (fun t => f (pc t)) = tot l pc := by
  unfold tot; simp only [h]

/-- The outcome is possible, and the new state is as said. -/
def Lands (P : S → Prop) (r : Res) : Prop :=
  match r with
  | .no => False
  | .bad => True
  | .ok s => P s

theorem lands_check {P : S → Prop} {b : Bool} {r : Res} (h : Lands P r) : Lands P (check b r) := by
  unfold check; split
  · exact h
  · trivial

/-- Only the place of `t` is different, as far as the measure goes. -/
def Down (t : Nat) (n : Nat) (s s' : S) : Prop :=
  s'.ctxs = s.ctxs ∧ s'.pages = s.pages ∧
    ∃ (f : Pc → Pc) (y : Pc), (∀ x, wt (f x) = wt x) ∧ s'.pc = upd (fun u => f (s.pc u)) t y ∧ wt y < n ∧ y ≠ .c5

theorem down_id {y : Pc} {n : Nat} (hc : s'.ctxs = s.ctxs) (hpg : s'.pages = s.pages) (hy : s'.pc = upd s.pc t y)
    (hn : wt y < n) (h5 : y ≠ .c5) : Down t n s s' :=
  ⟨hc, hpg, id, y, fun _ => rfl, hy, hn, h5⟩

theorem wt_eng (x : Pc) : wt (wakeEng x) = wt x := by cases x <;> rfl
theorem wt_helper (x : Pc) : wt (wakeHelper x) = wt x := by cases x <;> rfl
theorem wt_walk (x : Pc) : wt (wakeWalk x) = wt x := by
  cases x <;> first | rfl | (rename_i a b; cases a <;> rfl)

theorem lands_release {P : S → Prop} {f : S → Res} (h : ∀ s1, s1 = s ∨ s1 = { s with page := upd s.page t false } → Lands P (f s1)) :
    Lands P ((releasePage t s).and f) := by
  unfold releasePage
  split
  · unfold check
    split
    · exact h _ (.inr rfl)
    · trivial
  · exact h _ (.inl rfl)

theorem lands_engage {g : Gc} {y : Pc} {o : Option Nat} {n : Nat} {s0 : S} (hn : wt y < n) (h5 : y ≠ .c5)
    (hc : s.ctxs = s0.ctxs) (hpg : s.pages = s0.pages) (hpc : s.pc = s0.pc) {F : S → Res}
    (hF : ∀ s1 : S, F s1 = .ok { s1 with pc := upd s1.pc t y } ∨ F s1 = .ok { s1 with owner := o, pc := upd s1.pc t y }) :
    Lands (Down t n s0) ((engage t g s).and F) := by
  have aux : ∀ s1 : S, s1.ctxs = s0.ctxs → s1.pages = s0.pages →
      (s1.pc = s0.pc ∨ s1.pc = fun u => wakeEng (s0.pc u)) → Lands (Down t n s0) (F s1) := by
    intro s1 h1 h2 h3
    rcases hF s1 with e | e <;> rw [e] <;> rcases h3 with e3 | e3
    · exact down_id h1 h2 (by show upd s1.pc t y = _; rw [e3]) hn h5
    · exact ⟨h1, h2, wakeEng, y, wt_eng, by show upd s1.pc t y = _; rw [e3], hn, h5⟩
    · exact down_id h1 h2 (by show upd s1.pc t y = _; rw [e3]) hn h5
    · exact ⟨h1, h2, wakeEng, y, wt_eng, by show upd s1.pc t y = _; rw [e3], hn, h5⟩
  unfold engage
  simp only []
  split
  · split
    · exact aux _ hc hpg (.inr (by show (fun u => wakeEng (s.pc u)) = _; rw [hpc]))
    · exact aux _ hc hpg (.inl hpc)
  · unfold check
    split
    · exact aux _ hc hpg (.inl hpc)
    · trivial

/-- A holder of the mutex goes on towards the end. -/
theorem owner_down (h : Inv k s) (hs : s.st ≠ .inactive) (ho : owns (s.pc t) = true) (h5 : s.pc t ≠ .c5)
    (h4 : s.pc t ≠ .c4) (hf : s.pc t ≠ .cFin) :
    ∃ a, a ≠ .spurious ∧ Lands (Down t (wt (s.pc t)) s) (next t a s) := by
  have g : ∀ x, s.pc t = x → x ≠ .out → s.gc t = gcOf x := fun x e hx => by rw [h.gc t (e ▸ hx), e]
  cases hp : s.pc t <;> try (rw [hp] at ho; first | (cases ho; done) | (rename_i p; cases p <;> cases ho; done) | (rename_i p _; cases p <;> cases ho; done))
  case allocA =>
    refine ⟨.go, by simp, ?_⟩
    unfold next; rw [hp]; simp only []
    rw [if_pos ⟨hs, g _ hp (by simp)⟩]
    exact down_id rfl rfl rfl (by decide) (by simp)
  case allocM =>
    refine ⟨.go, by simp, ?_⟩
    unfold next; rw [hp]
    exact down_id rfl rfl rfl (by decide) (by simp)
  case suspM =>
    refine ⟨.go, by simp, ?_⟩
    unfold next; rw [hp]
    refine lands_check (lands_release fun s1 e => ?_)
    exact lands_engage (y := .susp) (o := none) (by decide) (by simp) (by rcases e with rfl | rfl <;> rfl)
      (by rcases e with rfl | rfl <;> rfl) (by rcases e with rfl | rfl <;> rfl) (fun s1 => .inr rfl)
  case resM =>
    refine ⟨.go, by simp, ?_⟩
    unfold next; rw [hp]
    refine lands_check ?_
    simp only []
    rw [if_neg hs]
    exact down_id rfl rfl rfl (by decide) (by simp)
  case collM =>
    refine ⟨.go, by simp, ?_⟩
    unfold next; rw [hp]
    simp only [collectBody]
    rw [if_neg hs]
    exact down_id rfl rfl rfl (by decide) (by simp)
  case h0 w =>
    refine ⟨.go, by simp, ?_⟩
    unfold next; rw [hp]
    refine lands_check ?_
    rw [if_neg hs]
    refine lands_check (lands_release fun s1 e => ?_)
    exact lands_engage (y := .h2 w) (o := none) (by cases w <;> decide) (by simp) (by rcases e with rfl | rfl <;> rfl)
      (by rcases e with rfl | rfl <;> rfl) (by rcases e with rfl | rfl <;> rfl) (fun s1 => .inl rfl)
  case h2 w =>
    refine ⟨.go, by simp, ?_⟩
    unfold next; rw [hp]
    refine lands_check ?_
    unfold helpBody
    split
    · exact down_id rfl rfl rfl (by simp [wt]) (by simp)
    · split
      · exact down_id rfl rfl rfl (by simp [wt]) (by simp)
      · exact down_id rfl rfl rfl (by simp [wt]) (by simp)
    · exact down_id rfl rfl rfl (by simp [wt]) (by simp)
  case hEnd w =>
    refine ⟨.go, by simp, ?_⟩
    unfold next; rw [hp]
    refine lands_check ?_
    simp only []
    split
    · exact ⟨rfl, rfl, wakeWalk, .hWait w false, wt_walk, rfl, by simp [wt], by simp⟩
    · exact down_id rfl rfl rfl (by simp [wt]) (by simp)
  case hChk w =>
    refine ⟨.go, by simp, ?_⟩
    unfold next; rw [hp]
    simp only [helpCheck]
    rw [if_neg hs]
    exact down_id rfl rfl rfl (by simp [wt]) (by simp)
  case hRet w =>
    refine ⟨.go, by simp, ?_⟩
    unfold next; rw [hp]
    cases w
    · exact down_id rfl rfl rfl (by decide) (by simp)
    · refine lands_check ?_
      exact down_id rfl rfl rfl (by decide) (by simp)
    · exact down_id rfl rfl rfl (by decide) (by simp)
  case c2 =>
    refine ⟨.go, by simp, ?_⟩
    unfold next; rw [hp]
    exact down_id rfl rfl rfl (by decide) (by simp)
  case c3 =>
    refine ⟨.go, by simp, ?_⟩
    unfold next; rw [hp]
    refine lands_release fun s1 e => ?_
    exact down_id (y := .c4) (by rcases e with rfl | rfl <;> rfl) (by rcases e with rfl | rfl <;> rfl)
      (by rcases e with rfl | rfl <;> rfl) (by decide) (by simp)
  case c4 => exact absurd hp h4
  case c5 => exact absurd hp h5
  case c6 =>
    refine ⟨.go, by simp, ?_⟩
    unfold next; rw [hp]
    refine lands_check ?_
    exact down_id rfl rfl rfl (by decide) (by simp)
  case c7 =>
    refine ⟨.go, by simp, ?_⟩
    unfold next; rw [hp]
    refine lands_check ?_
    exact ⟨rfl, rfl, wakeHelper, .cWalk .mark, wt_helper, rfl, by decide, by simp⟩
  case c8 p =>
    refine ⟨.go, by simp, ?_⟩
    unfold next; rw [hp]
    refine lands_check ?_
    simp only []
    split
    · exact down_id rfl rfl rfl (by cases p <;> decide) (by cases p <;> simp [afterWalk])
    · exact down_id rfl rfl rfl (by cases p <;> decide) (by simp)
  case c9 =>
    refine ⟨.go, by simp, ?_⟩
    unfold next; rw [hp]
    exact down_id rfl rfl rfl (by decide) (by simp)
  case cEvA =>
    refine ⟨.go, by simp, ?_⟩
    unfold next; rw [hp]
    exact down_id rfl rfl rfl (by decide) (by simp)
  case c10 =>
    refine ⟨.go, by simp, ?_⟩
    unfold next; rw [hp]
    exact down_id rfl rfl rfl (by decide) (by simp)
  case c10b =>
    refine ⟨.alt, by simp, ?_⟩
    unfold next; rw [hp]
    refine lands_check ?_
    exact down_id rfl rfl rfl (by decide) (by simp)
  case c11 =>
    refine ⟨.go, by simp, ?_⟩
    unfold next; rw [hp]
    refine lands_check ?_
    exact down_id rfl rfl rfl (by decide) (by simp)
  case cEnd =>
    refine ⟨.go, by simp, ?_⟩
    unfold next; rw [hp]
    exact down_id rfl rfl rfl (by decide) (by simp)
  case cFin => exact absurd hp hf


/-- How far the collection is from its end. -/
def dist (s : S) : Nat :=
  tot s.ctxs s.pc + (if s.ctxs.any (fun t => s.pc t = .c5) && runners s.ctxs s.pc ≠ 0 then 2 else 0) +
    (if s.pages then 1 else 0)

theorem wt_c5 (x : Pc) (h : wt x = 20) : x = .c5 := by
  cases x <;> first | rfl | (simp [wt] at h; done) | (rename_i p; cases p <;> simp [wt] at h; done) |
    (rename_i p _; cases p <;> simp [wt] at h; done)

theorem dist_down (h : Inv k s) (ht : t ∈ s.ctxs) (h5 : ∀ u, s.pc u ≠ .c5) (hd : Down t (wt (s.pc t)) s s') :
    dist s' < dist s := by
  obtain ⟨hc, hpg, f, y, hf, hpc, hw, hy⟩ := hd
  have e1 : (s.ctxs.any fun t => decide (s.pc t = .c5)) = false := by
    rw [List.any_eq_false]; intro u _; simpa using h5 u
  have e2 : (s.ctxs.any fun t => decide (s'.pc t = .c5)) = false := by
    rw [List.any_eq_false]; intro u _
    simp only [decide_eq_true_eq]
    rw [hpc]
    unfold upd
    split
    · exact hy
    · intro e
      have := hf (s.pc u)
      rw [show f (s.pc u) = .c5 from e] at this
      exact h5 u (wt_c5 _ this.symm)
  have e3 := tot_upd (pc := fun u => f (s.pc u)) y t s.ctxs h.nodup ht
  rw [tot_map f hf, hf] at e3
  unfold dist
  rw [hc, hpg, e1, e2, hpc]
  simp only [Bool.false_and]
  omega

theorem not_bad (h : Inv k s) {a : Act} {P : S → Prop} (hl : Lands P (next t a s)) :
    ∃ s', next t a s = .ok s' ∧ P s' := by
  have := good_next h t a
  cases e : next t a s with
  | no => rw [e] at hl; exact hl.elim
  | bad => rw [e] at this; exact this.elim
  | ok s' => rw [e] at hl; exact ⟨s', rfl, hl⟩

theorem r_run (x : Pc) : gcOf x = .inactive → owns x = false → x ≠ .out → x = .run ∨ x = .lHelp := by
  cases x <;> simp [gcOf, owns]
  all_goals (try (rename_i a; cases a <;> simp [gcOf, owns]))
  all_goals (try (rename_i a b; cases a <;> simp [gcOf, owns]))

theorem r_hWalk (x : Pc) : helping x = true → owns x = false → ∃ w, x = .hWalk w := by
  cases x <;> simp [helping, owns]
  all_goals (try (rename_i a; cases a <;> simp [helping]))
  all_goals (try (rename_i a b; cases a <;> simp [helping]))

theorem r_col (x : Pc) : isCol x = true → owns x = false →
    (∃ b, x = .cWait b) ∨ (∃ p, x = .cWalk p) ∨ (∃ p b, x = .cWW p b) ∨ x = .cEvac := by
  cases x <;> simp [isCol, owns]
  all_goals (try (rename_i a; cases a <;> simp [isCol, owns]))
  all_goals (try (rename_i a b; cases a <;> simp [isCol, owns]))

/-- Some thread brings the collection nearer to its end.  If it runs a program, it
    was told to. -/
theorem ends_step (h : Inv k s) (hs : s.st ≠ .inactive) :
    ∃ t a s', next t a s = .ok s' ∧ a ≠ .spurious ∧ (s'.st = .inactive ∨ dist s' < dist s) ∧
      s.pc t ≠ .susp ∧ s.pc t ≠ .out ∧ (s.pc t = .run → a = .help ∧ s.ev t = true) := by
  have hk := (h.col k).2 ⟨hs, rfl⟩
  have hkl : k ∈ s.ctxs := (h.link k).2 (by intro e; rw [e] at hk; cases hk)
  -- a step of a thread with a smaller place
  have mv : ∀ {t : Nat} {a : Act}, t ∈ s.ctxs → (∀ u, s.pc u ≠ .c5) → s.pc t ≠ .susp → a ≠ .spurious →
      (s.pc t = .run → a = .help ∧ s.ev t = true) →
      Lands (Down t (wt (s.pc t)) s) (next t a s) →
      ∃ t a s', next t a s = .ok s' ∧ a ≠ .spurious ∧ (s'.st = .inactive ∨ dist s' < dist s) ∧
      s.pc t ≠ .susp ∧ s.pc t ≠ .out ∧ (s.pc t = .run → a = .help ∧ s.ev t = true) := by
    intro t a ht h5 hsu ha hr hl
    obtain ⟨s', e, d⟩ := not_bad h hl
    exact ⟨t, a, s', e, ha, .inr (dist_down h ht h5 d), hsu, (h.link t).1 ht, hr⟩
  have only5 : s.pc k ≠ .c5 → ∀ u, s.pc u ≠ .c5 := by
    intro n u e
    have := ((h.col u).1 (by rw [e]; rfl)).2
    subst this
    exact n e
  cases ho : s.owner with
  | some t =>
    have hot := (h.own t).1 ho
    have htl : t ∈ s.ctxs := (h.link t).2 (by intro e; rw [e] at hot; cases hot)
    by_cases e5 : s.pc t = .c5
    · obtain ⟨rfl, _⟩ := collector h e5 rfl
      have hl : Lands (fun s' => dist s' < dist s) (next t .go s) := by
        unfold next; rw [e5]
        refine lands_check ?_
        simp only [count_eq h]
        have d0 : dist s = tot s.ctxs s.pc + (if runners s.ctxs s.pc ≠ 0 then 2 else 0) + (if s.pages then 1 else 0) := by
          unfold dist
          have : (s.ctxs.any fun t => decide (s.pc t = .c5)) = true := by
            rw [List.any_eq_true]; exact ⟨t, htl, by simpa using e5⟩
          rw [this]; simp
        have n5 : ∀ y, y ≠ .c5 → (s.ctxs.any fun u => decide (upd s.pc t y u = .c5)) = false := by
          intro y hy
          rw [List.any_eq_false]; intro u _
          simp only [decide_eq_true_eq]
          unfold upd; split
          · exact hy
          · rename_i hu
            intro e
            exact hu ((h.col u).1 (by rw [e]; rfl)).2
        split
        · rename_i hz
          show dist { s with toStop := _, pc := upd s.pc t .c6 } < dist s
          rw [d0]
          unfold dist
          simp only [n5 .c6 (by simp), Bool.false_and]
          have := tot_upd (pc := s.pc) .c6 t s.ctxs h.nodup htl
          rw [e5] at this
          simp [wt] at this
          simp
          omega
        · rename_i hz
          show dist { s with toStop := _, owner := none, pc := upd s.pc t (.cWait false) } < dist s
          rw [d0, if_pos hz]
          unfold dist
          simp only [n5 (.cWait false) (by simp), Bool.false_and]
          have := tot_upd (pc := s.pc) (.cWait false) t s.ctxs h.nodup htl
          rw [e5] at this
          simp [wt] at this
          simp
          omega
      obtain ⟨s', e, d⟩ := not_bad h hl
      exact ⟨t, .go, s', e, by simp, .inr d, by rw [e5]; simp, by rw [e5]; simp, by rw [e5]; simp⟩
    · by_cases e4 : s.pc t = .c4
      · obtain ⟨rfl, _⟩ := collector h e4 rfl
        have hl : Lands (fun s' => dist s' < dist s) (next t .go s) := by
          unfold next; rw [e4]
          refine lands_check ?_
          show dist { s with pc := upd s.pc t .c5 } < dist s
          have := tot_upd (pc := s.pc) .c5 t s.ctxs h.nodup htl
          rw [e4] at this
          simp only [wt] at this
          unfold dist
          simp only []
          split <;> omega
        obtain ⟨s', e, d⟩ := not_bad h hl
        exact ⟨t, .go, s', e, by simp, .inr d, by rw [e4]; simp, by rw [e4]; simp, by rw [e4]; simp⟩
      · by_cases ef : s.pc t = .cFin
        · have hl : Lands (fun s' => s'.st = .inactive) (next t .go s) := by
            unfold next; rw [ef]
            rfl
          obtain ⟨s', e, d⟩ := not_bad h hl
          exact ⟨t, .go, s', e, by simp, .inl d, by rw [ef]; simp, by rw [ef]; simp, by rw [ef]; simp⟩
        · obtain ⟨a, ha, hl⟩ := owner_down h hs hot e5 e4 ef
          have hk5 : s.pc k ≠ .c5 := by
            intro e
            have := (h.own k).2 (by rw [e]; rfl)
            rw [ho] at this
            have := Option.some.inj this
            subst this
            exact e5 e
          exact mv htl (only5 hk5) (by intro e; rw [e] at hot; cases hot) ha
            (by intro e; rw [e] at hot; cases hot) hl
  | none =>
    have hno : ∀ u, owns (s.pc u) = false := by
      intro u
      cases e : owns (s.pc u)
      · rfl
      · have := (h.own u).2 e; rw [ho] at this; cases this
    have tk : ∀ {u : Nat} {y : Pc}, wt y < wt (s.pc u) → y ≠ .c5 → Lands (Down u (wt (s.pc u)) s) (take u y s) := by
      intro u y hw hy
      unfold take
      rw [ho]
      exact down_id rfl rfl rfl hw hy
    have k5 : ∀ u, s.pc u ≠ .c5 := by
      intro u e; have := hno u; rw [e] at this; cases this
    rcases r_col _ hk (hno k) with ⟨b, hp⟩ | ⟨p, hp⟩ | ⟨p, b, hp⟩ | hp
    · by_cases hr : runners s.ctxs s.pc = 0
      · -- all have stopped
        have hb : b = true := by
          cases b
          · have := h.eng1 hp; omega
          · rfl
        subst hb
        have hl : Lands (fun s' => dist s' < dist s) (next k .go s) := by
          unfold next; rw [hp]
          simp only [take, ho]
          show dist { s with owner := some k, pc := upd s.pc k .c5 } < dist s
          have e1 := tot_upd (pc := s.pc) .c5 k s.ctxs h.nodup hkl
          have e2 := rn h .c5 hp (by simp)
          rw [hp] at e1
          simp [gcOf] at e2
          simp only [wt] at e1
          unfold dist
          simp only [e2, hr]
          simp
          omega
        obtain ⟨s', e, d⟩ := not_bad h hl
        exact ⟨k, .go, s', e, by simp, .inr d, by rw [hp]; simp, by rw [hp]; simp, by rw [hp]; simp⟩
      · obtain ⟨u, hu, hg⟩ := runners_pos (Nat.pos_of_ne_zero hr)
        rcases r_run _ hg (hno u) ((h.link u).1 hu) with e | e
        · refine mv (t := u) (a := .help) hu k5 (by rw [e]; simp) (by simp) (fun _ => ⟨rfl, ?_⟩) ?_
          · rw [h.ev u hu]; exact h.ev1 (by rw [hp]; rfl)
          · unfold next; rw [e]; simp only []
            rw [if_neg hs]
            exact down_id rfl rfl rfl (by decide) (by simp)
        · refine mv (t := u) (a := .go) hu k5 (by rw [e]; simp) (by simp) (by rw [e]; simp) ?_
          have := tk (u := u) (y := .h0 .plain) (by rw [e]; decide) (by simp)
          unfold next; rw [e] at this ⊢; exact this
    · cases p
      · refine mv (t := k) (a := .go) hkl k5 (by rw [hp]; simp) (by simp) (by rw [hp]; simp) ?_
        have := tk (u := k) (y := .c8 .mark) (by rw [hp]; decide) (by simp)
        unfold next; rw [hp] at this ⊢; exact this
      · cases e : s.pages
        · refine mv (t := k) (a := .go) hkl k5 (by rw [hp]; simp) (by simp) (by rw [hp]; simp) ?_
          have := tk (u := k) (y := .c8 .upd) (by rw [hp]; decide) (by simp)
          unfold next; rw [hp] at this ⊢; simp only [e]; exact this
        · have hl : Lands (fun s' => dist s' < dist s) (next k .last s) := by
            unfold next; rw [hp]
            show dist { s with pages := false } < dist s
            unfold dist
            rw [e]
            simp
          obtain ⟨s', e, d⟩ := not_bad h hl
          exact ⟨k, .last, s', e, by simp, .inr d, by rw [hp]; simp, by rw [hp]; simp, by rw [hp]; simp⟩
    · by_cases hw : s.walk = 0
      · have hb : b = true := by
          cases b
          · have := h.ww p hp; omega
          · rfl
        subst hb
        refine mv (t := k) (a := .go) hkl k5 (by rw [hp]; simp) (by simp) (by rw [hp]; simp) ?_
        unfold next; rw [hp]
        simp only [mainWait, ho, hw]
        exact down_id rfl rfl rfl (by cases p <;> decide) (by cases p <;> simp [afterWalk])
      · -- a helper still walks
        have : ∃ u, u ∈ s.ctxs ∧ walking (s.pc u) = true := by
          rw [h.walk] at hw
          unfold walkers at hw
          have := List.countP_pos_iff.1 (Nat.pos_of_ne_zero hw)
          simpa using this
        obtain ⟨u, hu, hwk⟩ := this
        have hh : helping (s.pc u) = true := by
          rcases r_walk _ hwk with e | ⟨e, _⟩
          · exact e
          · have := ((h.col u).1 e).2
            subst this
            rw [hp] at hwk
            cases p <;> cases hwk
        obtain ⟨w, e⟩ := r_hWalk _ hh (hno u)
        refine mv (t := u) (a := .go) hu k5 (by rw [e]; simp) (by simp) (by rw [e]; simp) ?_
        have := tk (u := u) (y := .hEnd w) (by rw [e]; simp [wt]) (by simp)
        unfold next; rw [e] at this ⊢; exact this
    · refine mv (t := k) (a := .go) hkl k5 (by rw [hp]; simp) (by simp) (by rw [hp]; simp) ?_
      unfold next; rw [hp]
      refine lands_release fun s1 e => ?_
      have ho1 : s1.owner = none := by rcases e with rfl | rfl <;> exact ho
      unfold take
      rw [ho1]
      exact down_id (y := .c10) (by rcases e with rfl | rfl <;> rfl) (by rcases e with rfl | rfl <;> rfl)
        (by rcases e with rfl | rfl <;> rfl) (by decide) (by simp)

/-- Some steps, one after the other, none of them a wake-up without a signal. -/
inductive Steps : S → S → Prop
  | refl (s : S) : Steps s s
  | step {s s' s'' : S} (t : Nat) (a : Act) : next t a s = .ok s' → a ≠ .spurious → Steps s' s'' → Steps s s''

theorem ends (n : Nat) : ∀ s, (∃ k, Inv k s) → dist s ≤ n → ∃ s', Steps s s' ∧ s'.st = .inactive := by
  induction n with
  | zero =>
    rintro s ⟨k, h⟩ hd
    by_cases hs : s.st = .inactive
    · exact ⟨s, .refl s, hs⟩
    · obtain ⟨t, a, s', e, ha, d, _⟩ := ends_step h hs
      rcases d with d | d
      · exact ⟨s', .step t a e ha (.refl s'), d⟩
      · omega
  | succ n ih =>
    rintro s ⟨k, h⟩ hd
    by_cases hs : s.st = .inactive
    · exact ⟨s, .refl s, hs⟩
    · obtain ⟨t, a, s', e, ha, d, _⟩ := ends_step h hs
      rcases d with d | d
      · exact ⟨s', .step t a e ha (.refl s'), d⟩
      · have g := good_next h t a
        rw [e] at g
        obtain ⟨s'', e'', hi⟩ := ih s' g (by omega)
        exact ⟨s'', .step t a e ha e'', hi⟩
end Verif.Stop
