/-
  The steps of the collector, registration, and all steps together.
-/
import Verif.Stop.Steps

namespace Verif.Stop

variable {k : Nat} {s s' : S} {t : Nat}

theorem collector (h : Inv k s) {x : Pc} (hp : s.pc t = x) (hc : isCol x = true) : t = k ∧ s.st ≠ .inactive := by
  have := (h.col t).1 (by rw [hp]; exact hc)
  exact ⟨this.2, this.1⟩

theorem others (h : Inv k s) (hs : s.st ≠ .inactive) (ho : owns (s.pc k) = true) (u : Nat) (hu : u ≠ k) :
    isCol (s.pc u) = false ∧ owns (s.pc u) = false := by
  constructor
  · cases e : isCol (s.pc u)
    · rfl
    · exact absurd ((h.col u).1 e).2 hu
  · cases e : owns (s.pc u)
    · rfl
    · have a := (h.own u).2 e
      rw [(h.own k).2 ho] at a
      exact absurd (Option.some.inj a).symm hu

theorem g_c2 (h : Inv k s) (hp : s.pc t = .c2) : Good (goto t .c3 (setEvents true s)) := by
  obtain ⟨rfl, hs⟩ := collector h hp rfl
  have hm := h.main
  unfold goto setEvents
  move h hp .c3

theorem g_cEnd (h : Inv k s) (hp : s.pc t = .cEnd) : Good (goto t .cFin (setEvents false s)) := by
  obtain ⟨rfl, hs⟩ := collector h hp rfl
  have hm := h.main
  unfold goto setEvents
  move h hp .cFin

theorem g_c3 (h : Inv k s) (hp : s.pc t = .c3) :
    Good ((releasePage t { s with gc := upd s.gc t .engaged }).and (goto t .c4)) := by
  obtain ⟨rfl, hs⟩ := collector h hp rfl
  rw [releasePage_eq (fun _ => .inr (.inr (by simp [upd])))]
  show Good (.ok { s with gc := upd s.gc t .engaged, page := upd s.page t false, pc := upd s.pc t .c4 })
  move h hp .c4

theorem g_c4 (h : Inv k s) (hp : s.pc t = .c4) : Good (check (s.toStop = 0) (goto t .c5 s)) := by
  obtain ⟨rfl, hs⟩ := collector h hp rfl
  refine good_check ?_ ?_
  · by_cases e : s.toStop = 0
    · simpa using e
    · have := h.eng e
      rw [hp] at this; cases this
  · unfold goto
    move h hp .c5

theorem count_eq (h : Inv k s) : count s = runners s.ctxs s.pc := by
  unfold count runners
  apply List.countP_congr
  intro u hu
  rw [h.gc u ((h.link u).1 hu)]

theorem g_c5' (h : Inv k s) (hp : s.pc t = .c5) : Good (stopLoop t s) := by
  obtain ⟨rfl, hs⟩ := collector h hp rfl
  have ho : owns (s.pc t) = true := by rw [hp]; rfl
  have hot := others h hs ho
  unfold stopLoop
  refine good_check ?_ ?_
  · unfold pagesOk
    rw [List.all_eq_true]
    intro u hu
    have hl := (h.link u).1 hu
    rw [h.gc u hl]
    by_cases e : gcOf (s.pc u) = .inactive
    · simp [e]
    · cases e' : s.page u
      · simp
      · exfalso
        obtain ⟨a, b⟩ := r_page _ (h.page u hl e') e
        by_cases e : u = t
        · subst e; rw [hp] at b; cases b
        · rw [(hot u e).1] at a; cases a
  · simp only [count_eq h]
    split
    · rename_i hz
      have hq : ∀ u, u ≠ t → quiet (s.pc u) = true := by
        intro u hu
        by_cases ho : s.pc u = .out
        · rw [ho]; rfl
        · refine r_gc _ ?_ (hot u hu).1
          intro e
          unfold runners at hz
          rw [List.countP_eq_zero] at hz
          exact hz u ((h.link u).2 ho) (by simpa using e)
      unfold goto
      move h hp .c6
    · rename_i hz
      unfold drop
      move h hp (.cWait false)

theorem stopped (h : Inv k s) (hs : s.st ≠ .inactive) (hp : past (s.pc k) = true) (hg : gcOf (s.pc k) = .engaged)
    (ho : owns (s.pc k) = true) : allStopped s = true := by
  unfold allStopped
  rw [List.all_eq_true]
  intro u hu
  have hl := (h.link u).1 hu
  rw [h.gc u hl]
  by_cases e : u = k
  · subst e; rw [hg]; rfl
  · have q := h.stop hp u e
    rcases r_qs _ q (others h hs ho u e).2 with a | a
    · simpa using a
    · exact absurd a hl

theorem no_pages (h : Inv k s) (hp : past (s.pc k) = true) (hk : mayPage (s.pc k) = false) :
    s.ctxs.all (fun t => !s.page t) = true := by
  rw [List.all_eq_true]
  intro u hu
  have hl := (h.link u).1 hu
  cases e : s.page u
  · rfl
  · exfalso
    have m := h.page u hl e
    by_cases e' : u = k
    · subst e'; rw [hk] at m; cases m
    · have q := h.stop hp u e'
      revert m q
      cases s.pc u <;> simp [mayPage, quiet]
      all_goals (try (rename_i w; cases w <;> simp [mayPage, quiet]))
      all_goals (try (rename_i w _; cases w <;> simp [mayPage, quiet]))

theorem g_c6 (h : Inv k s) (hp : s.pc t = .c6) : Good (check (allStopped s) (goto t .c7 { s with st := .mark })) := by
  obtain ⟨rfl, hs⟩ := collector h hp rfl
  refine good_check (stopped h hs (by rw [hp]; rfl) (by rw [hp]; rfl) (by rw [hp]; rfl)) ?_
  unfold goto
  move h hp .c7

theorem g_c6e (h : Inv k s) (hp : s.pc t = .c6) : Good (check (allStopped s) (goto t .cEnd s)) := by
  obtain ⟨rfl, hs⟩ := collector h hp rfl
  refine good_check (stopped h hs (by rw [hp]; rfl) (by rw [hp]; rfl) (by rw [hp]; rfl)) ?_
  unfold goto
  move h hp .cEnd

theorem walk_zero (h : Inv k s) (hk : inWalk (s.pc k) = false) : s.walk = 0 := by
  rw [h.walk]
  apply walkers_none
  intro u _
  cases e : walking (s.pc u)
  · rfl
  · rcases r_walk _ e with a | ⟨a, b⟩
    · rw [h.ws u a] at hk; cases hk
    · have := ((h.col u).1 a).2
      subst this
      rw [b] at hk; cases hk

theorem g_mainWalk (h : Inv k s) {p : Ph} (hp : s.pc t = .c7 ∧ p = .mark ∧ s.pages = false ∨ s.pc t = .c10b ∧ p = .upd)
    (b : Bool) (hb : p = .mark → b = false) :
    Good (mainWalk t p { s with pages := b }) := by
  obtain ⟨rfl, hs⟩ : t = k ∧ s.st ≠ .inactive := by
    rcases hp with ⟨hp, _⟩ | ⟨hp, _⟩ <;> exact collector h hp rfl
  have h1 := broadcast_inv h
  have hp1 : (broadcast s).pc t = .c7 ∧ p = .mark ∨ (broadcast s).pc t = .c10b ∧ p = .upd := by
    show wakeHelper (s.pc t) = _ ∧ _ ∨ wakeHelper (s.pc t) = _ ∧ _
    rcases hp with ⟨hp, e, _⟩ | ⟨hp, e⟩ <;> rw [hp] <;> simp [wakeHelper, e]
  show Good (.ok { broadcast s with
    walk := (broadcast s).walk + 1, owner := none, pc := upd (broadcast s).pc t (.cWalk p), pages := b })
  obtain ⟨q, hq⟩ : ∃ q, q = broadcast s := ⟨_, rfl⟩
  rw [← hq] at h1 hp1 ⊢
  clear hq hp hs h
  rcases hp1 with ⟨hp1, rfl⟩ | ⟨hp1, rfl⟩
  · have := hb rfl
    move h1 hp1 (.cWalk .mark)
  · move h1 hp1 (.cWalk .upd)

theorem pages_false (h : Inv k s) (hk : s.pc k ≠ .cWalk .upd) : s.pages = false := by
  cases e : s.pages
  · rfl
  · exact absurd (h.pg e) hk

theorem g_c7 (h : Inv k s) (hp : s.pc t = .c7) : Good (check (s.walk = 0) (mainWalk t .mark s)) := by
  obtain ⟨rfl, hs⟩ := collector h hp rfl
  have hz := pages_false h (by rw [hp]; simp)
  refine good_check (by simpa using walk_zero h (by rw [hp]; rfl)) ?_
  have := g_mainWalk h (t := t) (p := .mark) (.inl ⟨hp, rfl, hz⟩) false (fun _ => rfl)
  have e : { s with pages := false } = s := by cases s; simp only [] at hz; rw [hz]
  rwa [e] at this

theorem c10b_checks (h : Inv k s) (hp : s.pc t = .c10b) : s.walk = 0 ∧ s.pages = false ∧ s.page t = false := by
  obtain ⟨rfl, hs⟩ := collector h hp rfl
  refine ⟨walk_zero h (by rw [hp]; rfl), pages_false h (by rw [hp]; simp), ?_⟩
  cases e : s.page t
  · rfl
  · have := h.page t (by rw [hp]; simp) e
    rw [hp] at this; cases this

theorem g_c10b (h : Inv k s) (hp : s.pc t = .c10b) :
    Good (check (s.walk = 0 ∧ s.pages = false ∧ s.page t = false) (mainWalk t .upd { s with pages := true })) :=
  good_check (by simpa using c10b_checks h hp) (g_mainWalk h (.inr ⟨hp, rfl⟩) true (by simp))

theorem g_c10b' (h : Inv k s) (hp : s.pc t = .c10b) :
    Good (check (s.walk = 0 ∧ s.pages = false ∧ s.page t = false) (goto t .c11 s)) := by
  refine good_check (by simpa using c10b_checks h hp) ?_
  obtain ⟨rfl, hs⟩ := collector h hp rfl
  have hw : ∀ u, helping (s.pc u) = false := by
    intro u
    cases e : helping (s.pc u)
    · rfl
    · have := h.ws u e; rw [hp] at this; cases this
  unfold goto
  move h hp .c11

/-- After the last thread left the walk. -/
theorem nobody_helps (h : Inv k s) {p : Ph} (hp : s.pc k = .c8 p) (hz : s.walk - 1 = 0) (u : Nat) :
    helping (s.pc u) = false := by
  have kw := wk h .c9 hp (by simp)
  have e1 : walking (.c8 p) = true := by cases p <;> rfl
  rw [e1] at kw
  have : walkers s.ctxs (upd s.pc k .c9) = 0 := by
    rw [h.walk] at hz
    simp [walking] at kw
    omega
  have n := walkers_zero this
  cases e : helping (s.pc u)
  · rfl
  · obtain ⟨a, b⟩ := r_help _ e
    have hu : u ≠ k := by intro e; subst e; rw [hp] at b; cases p <;> cases b
    have := n u ((h.link u).2 (by intro e'; rw [e'] at a; cases a))
    simp only [upd, if_neg hu] at this
    rw [a] at this; cases this

theorem g_mainEnd (h : Inv k s) {p : Ph} (hp : s.pc t = .c8 p) : Good (mainEnd t p s) := by
  obtain ⟨rfl, hs⟩ := collector h hp (by cases p <;> rfl)
  have hw : 0 < s.walk := by
    rw [h.walk]
    have := wk h .run hp (by simp)
    have e1 : walking (.c8 p) = true := by cases p <;> rfl
    rw [e1] at this
    simp [walking] at this
    omega
  unfold mainEnd
  refine good_check (by simpa using hw) ?_
  simp only []
  split
  · rename_i hz
    have nh := nobody_helps h hp hz
    unfold goto
    cases p
    · show Good (.ok { s with walk := s.walk - 1, pc := upd s.pc t .c9 })
      move h hp .c9
    · show Good (.ok { s with walk := s.walk - 1, pc := upd s.pc t .c11 })
      move h hp .c11
  · rename_i hz
    unfold drop
    cases p
    · move h hp (.cWW .mark false)
    · move h hp (.cWW .upd false)

theorem g_mainWait (h : Inv k s) {p : Ph} {b : Bool} (hp : s.pc t = .cWW p b) : Good (mainWait t p s) := by
  obtain ⟨rfl, hs⟩ := collector h hp (by cases p <;> rfl)
  unfold mainWait
  split
  · rename_i ho
    split
    · rename_i hz
      have nh : ∀ u, helping (s.pc u) = false := by
        intro u
        cases e : helping (s.pc u)
        · rfl
        · obtain ⟨a, _⟩ := r_help _ e
          rw [h.walk] at hz
          rw [walkers_zero hz u ((h.link u).2 (by intro e'; rw [e'] at a; cases a))] at a
          cases a
      cases p
      · show Good (.ok { s with owner := some t, pc := upd s.pc t .c9 })
        move h hp .c9
      · show Good (.ok { s with owner := some t, pc := upd s.pc t .c11 })
        move h hp .c11
    · rename_i hz
      unfold drop
      cases p
      · move h hp (.cWW .mark false)
      · move h hp (.cWW .upd false)
  · trivial

theorem g_c10' (h : Inv k s) (hp : s.pc t = .cEvac) : Good ((releasePage t s).and (take t .c10)) := by
  obtain ⟨rfl, hs⟩ := collector h hp rfl
  rw [releasePage_eq (fun _ => .inr (.inr (by rw [h.gc t (by rw [hp]; simp), hp]; rfl)))]
  show Good (take t .c10 { s with page := upd s.page t false })
  unfold take
  split
  · rename_i ho
    have ho : s.owner = none := ho
    show Good (.ok { s with page := upd s.page t false, owner := some t, pc := upd s.pc t .c10 })
    move h hp .c10
  · trivial

theorem g_c11 (h : Inv k s) (hp : s.pc t = .c11) :
    Good (check (allStopped s && s.ctxs.all (fun t => !s.page t)) (goto t .cEnd s)) := by
  obtain ⟨rfl, hs⟩ := collector h hp rfl
  refine good_check ?_ ?_
  · rw [stopped h hs (by rw [hp]; rfl) (by rw [hp]; rfl) (by rw [hp]; rfl),
      no_pages h (by rw [hp]; rfl) (by rw [hp]; rfl)]; rfl
  · unfold goto
    move h hp .cEnd

theorem g_c11e (h : Inv k s) (hp : s.pc t = .c11) :
    Good (check (allStopped s && s.ctxs.all (fun t => !s.page t)) (drop t .cEvac { s with st := .evac })) := by
  obtain ⟨rfl, hs⟩ := collector h hp rfl
  refine good_check ?_ ?_
  · rw [stopped h hs (by rw [hp]; rfl) (by rw [hp]; rfl) (by rw [hp]; rfl),
      no_pages h (by rw [hp]; rfl) (by rw [hp]; rfl)]; rfl
  · unfold drop
    move h hp .cEvac

theorem g_cFin (h : Inv k s) (hp : s.pc t = .cFin) :
    Good (drop t .run (broadcast { s with gc := upd s.gc t .inactive, st := .inactive })) := by
  obtain ⟨rfl, hs⟩ := collector h hp rfl
  have hq := h.stop (by rw [hp]; rfl)
  have hot := others h hs (by rw [hp]; rfl)
  have hnd : ∀ u, needs (s.pc u) = false := by
    intro u
    by_cases e : u = t
    · subst e; rw [hp]; rfl
    · have a := hq u e
      have b := (hot u e).2
      revert a b
      cases s.pc u <;> simp [quiet, owns, needs]
      all_goals (try (rename_i w; cases w <;> simp [quiet, owns, needs]))
      all_goals (try (rename_i w _; cases w <;> simp [quiet, owns, needs]))
  have h1 := broadcast_inv h
  have hp1 : (broadcast s).pc t = .cFin := by
    show wakeHelper (s.pc t) = _
    rw [hp]; rfl
  have hn : ∀ u w, (broadcast s).pc u ≠ .hWait w false := fun u w => wakeHelper_hW _ w
  have hnd1 : ∀ u, needs ((broadcast s).pc u) = false := fun u => by
    show needs (wakeHelper _) = _
    rw [wakeHelper_h0]; exact hnd u
  show Good (.ok { broadcast s with
    owner := none, st := .inactive, gc := upd (broadcast s).gc t .inactive, pc := upd (broadcast s).pc t .run })
  obtain ⟨q, hq⟩ : ∃ q, q = broadcast s := ⟨_, rfl⟩
  rw [← hq] at h1 hp1 hn hnd1 ⊢
  clear hq hp hs h hnd hot
  have hpp := h1.page t
  move h1 hp1 .run


theorem walkers_cons {l : List Nat} {pc : Nat → Pc} (hn : t ∉ l) (x : Pc) :
    walkers (t :: l) (upd pc t x) = walkers l pc + (walking x).toNat := by
  unfold walkers
  rw [List.countP_cons]
  have : l.countP (fun u => walking (upd pc t x u)) = l.countP (fun u => walking (pc u)) := by
    apply List.countP_congr
    intro y hy
    have : y ≠ t := fun e => hn (e ▸ hy)
    simp [upd, this]
  rw [this]
  simp only [upd, if_true]
  cases walking x <;> simp

theorem runners_cons {l : List Nat} {pc : Nat → Pc} (hn : t ∉ l) (x : Pc) :
    runners (t :: l) (upd pc t x) = runners l pc + (decide (gcOf x = .inactive)).toNat := by
  unfold runners
  rw [List.countP_cons]
  have : l.countP (fun u => decide (gcOf (upd pc t x u) = .inactive)) =
      l.countP (fun u => decide (gcOf (pc u) = .inactive)) := by
    apply List.countP_congr
    intro y hy
    have : y ≠ t := fun e => hn (e ▸ hy)
    simp [upd, this]
  rw [this]
  simp only [upd, if_true]
  cases decide (gcOf x = .inactive) <;> simp

theorem g_link (h : Inv k s) (hp : s.pc t = .out) : Good (linkCtx t s) := by
  have hn : t ∉ s.ctxs := fun e => (h.link t).1 e hp
  have h0 : t ≠ 0 := fun e => hn (e ▸ h.main)
  have kw := walkers_cons (pc := s.pc) hn .susp
  have kr := runners_cons (pc := s.pc) hn .susp
  have c1 := h.col t
  have hm := h.main
  unfold linkCtx
  refine good_of h ?_
  constructor
  case nodup => exact List.nodup_cons.2 ⟨hn, h.nodup⟩
  case own => have := h.own; grind
  case link => have := h.link; grind
  case main => grind
  case gc => have := h.gc; grind
  case col => have := h.col; grind
  case ph => have := h.ph; grind
  case stop => have := h.stop; grind
  case page => have := h.page; grind
  case h0a => have := h.h0a; grind
  case eng => have := h.eng; grind
  case eng1 => have := h.eng1; grind
  case walk => have := h.walk; grind
  case ww => have := h.ww; grind
  case ws => have := h.ws; grind
  case pg => have := h.pg; grind
  case ev => have := h.ev; grind
  case ev1 => have := h.ev1; grind
  case ev0 => have := h.ev0; grind
  case hw => have := h.hw; grind

theorem countP_erase (p : Nat → Bool) (ht : p t = false) : ∀ l : List Nat, (l.erase t).countP p = l.countP p := by
  intro l
  induction l with
  | nil => rfl
  | cons a r ih =>
    by_cases e : a = t
    · subst e
      rw [List.erase_cons_head, List.countP_cons, ht]; simp
    · rw [List.erase_cons_tail (by simpa using e), List.countP_cons, List.countP_cons, ih]

theorem walkers_erase {l : List Nat} {pc : Nat → Pc} (hn : l.Nodup) (hw : walking (pc t) = false) (x : Pc) :
    walkers (l.erase t) (upd pc t x) = walkers l pc := by
  unfold walkers
  have : (l.erase t).countP (fun u => walking (upd pc t x u)) = (l.erase t).countP (fun u => walking (pc u)) := by
    apply List.countP_congr
    intro y hy
    have : y ≠ t := fun e => (hn.not_mem_erase (e ▸ hy))
    simp [upd, this]
  rw [this, countP_erase _ (by simpa using hw)]

theorem runners_erase {l : List Nat} {pc : Nat → Pc} (hn : l.Nodup) (hw : gcOf (pc t) ≠ .inactive) (x : Pc) :
    runners (l.erase t) (upd pc t x) = runners l pc := by
  unfold runners
  have : (l.erase t).countP (fun u => decide (gcOf (upd pc t x u) = .inactive)) =
      (l.erase t).countP (fun u => decide (gcOf (pc u) = .inactive)) := by
    apply List.countP_congr
    intro y hy
    have : y ≠ t := fun e => (hn.not_mem_erase (e ▸ hy))
    simp [upd, this]
  rw [this, countP_erase _ (by simpa using hw)]

theorem g_unlink (h : Inv k s) (hp : s.pc t = .susp) : Good (unlinkCtx t s) := by
  unfold unlinkCtx
  split
  · trivial
  · rename_i h0
    have kw := walkers_erase (pc := s.pc) (t := t) h.nodup (by rw [hp]; rfl) .out
    have kr := runners_erase (pc := s.pc) (t := t) h.nodup (by rw [hp]; simp [gcOf]) .out
    have c1 := h.col t
    have hm := h.main
    have he : ∀ u, u ∈ s.ctxs.erase t ↔ u ≠ t ∧ u ∈ s.ctxs := fun u => h.nodup.mem_erase_iff
    refine good_of h ?_
    constructor
    case nodup => exact h.nodup.erase t
    case own => have := h.own; grind
    case link => have := h.link; grind
    case main => grind
    case gc => have := h.gc; grind
    case col => have := h.col; grind
    case ph => have := h.ph; grind
    case stop => have := h.stop; grind
    case page => have := h.page; grind
    case h0a => have := h.h0a; grind
    case eng => have := h.eng; grind
    case eng1 => have := h.eng1; grind
    case walk => have := h.walk; grind
    case ww => have := h.ww; grind
    case ws => have := h.ws; grind
    case pg => have := h.pg; grind
    case ev => have := h.ev; grind
    case ev1 => have := h.ev1; grind
    case ev0 => have := h.ev0; grind
    case hw => have := h.hw; grind

theorem g_last (h : Inv k s) : Good (.ok { s with pages := false }) := by
  refine ⟨k, ?_⟩
  obtain ⟨i1, i2, i3, i4, i5, i6, i7, i8, i9, i10, i11, i12, i13, i14, i15, i16, i17, i18, i19, i20⟩ := h
  constructor <;> first | assumption | simp

/-- Every step. -/
theorem good_next (h : Inv k s) (t : Nat) (a : Act) : Good (next t a s) := by
  unfold next
  split <;> try (rename_i hp; first
    | exact g_link h hp
    | exact good_self h
    | exact g_allocA h hp
    | exact g_allocM h hp
    | exact g_suspM h hp
    | exact g_collM h hp
    | exact g_resM h hp
    | exact g_unlink h hp
    | exact g_h0 h hp
    | exact g_page h (.inl hp)
    | exact g_page h (.inr hp)
    | exact g_release h (.inl hp)
    | exact g_release h (.inr hp)
    | exact g_alr h hp
    | exact g_suspend h hp
    | exact g_resume h hp
    | exact g_collect h hp
    | exact g_helpBegin h hp
    | exact g_helpBody h hp
    | exact g_hChk h hp
    | exact g_last h
    | exact g_hEnd h hp
    | exact g_helperEnd h hp
    | exact g_helpCheck h hp
    | exact g_helpReturn h hp
    | exact g_c2 h hp
    | exact g_c3 h hp
    | exact g_c4 h hp
    | exact g_c5' h hp
    | exact g_c5 h hp
    | exact g_c6 h hp
    | exact g_c6e h hp
    | exact g_c7 h hp
    | exact g_c8m h hp
    | exact g_mainEnd h hp
    | exact g_mainWait h hp
    | exact g_c9 h hp
    | exact g_c9e h hp
    | exact g_cEvA h hp
    | exact g_c10' h hp
    | exact g_cEv h hp
    | exact g_c10 h hp
    | exact g_c10b h hp
    | exact g_c10b' h hp
    | exact g_c11 h hp
    | exact g_c11e h hp
    | exact g_cEnd h hp
    | exact g_cFin h hp)
  · rename_i hp
    split
    · exact good_self h
    · exact g_lHelp h hp
  · rename_i hp
    split
    · rename_i e; exact g_h0a h hp e.1
    · exact g_alm h hp
  · rename_i hp
    split
    · trivial
    · rename_i e; exact g_c8u h hp (by simpa using e)
  · trivial

theorem reach_inv (h : Reach s) : ∃ k, Inv k s := by
  induction h with
  | init => exact ⟨0, init_inv⟩
  | step t a _ hs ih =>
    obtain ⟨k, ih⟩ := ih
    have := good_next ih t a
    rw [hs] at this
    exact this

end Verif.Stop
