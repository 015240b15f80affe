/-
  Every step keeps what holds in all states, and no assertion fails.
-/
import Verif.Stop.Proof

namespace Verif.Stop

variable {k : Nat} {s s' : S} {t : Nat}

theorem good_self (h : Inv k s) : Good (.ok s) := ⟨k, h⟩

/-- A thread which holds the mutex and does not collect is not past the stop. -/
theorem not_past (h : Inv k s) {x : Pc} (hp : s.pc t = x) (hq : quiet x = false) (hc : isCol x = false)
    (hs : s.st ≠ .inactive) : s.st = .init ∧ past (s.pc k) = false := by
  have p := h.ph hs
  have n := h.stop
  have c := h.col t
  have r := r_past _ _ p
  have : past (s.pc k) = false := by
    cases e : past (s.pc k)
    · rfl
    · have := n e t (by intro e; subst e; have := (h.col t).2 ⟨hs, rfl⟩; rw [hp, hc] at this; cases this)
      rw [hp, hq] at this; cases this
  refine ⟨?_, this⟩
  cases e : s.st <;> simp_all

/-- If a thread which does not collect holds the mutex, the collector does not. -/
theorem not_owns (h : Inv k s) {x : Pc} (hp : s.pc t = x) (ho : owns x = true) (hc : isCol x = false)
    (hs : s.st ≠ .inactive) : owns (s.pc k) = false ∧ t ≠ k := by
  have o1 := h.own t
  have o2 := h.own k
  have c := h.col k
  have : t ≠ k := by
    intro e; subst e
    have := (h.col t).2 ⟨hs, rfl⟩
    rw [hp, hc] at this; cases this
  refine ⟨?_, this⟩
  cases e : owns (s.pc k)
  · rfl
  · have a := o2.2 e
    rw [hp] at o1
    rw [o1.2 ho] at a
    exact absurd (Option.some.inj a) this

theorem releasePage_eq (hc : s.page t = true → s.st = .inactive ∨ s.st = .init ∨ s.gc t = .engaged) :
    releasePage t s = .ok { s with page := upd s.page t false } := by
  unfold releasePage
  split
  · rename_i h
    unfold check
    rw [if_pos (by simpa using hc h)]
  · rename_i h
    have : upd s.page t false = s.page := by
      funext u
      unfold upd
      split
      · rename_i e; subst e; simpa using h
      · rfl
    rw [this]

theorem page_inv (h : Inv k s) (b : Bool) (hb : b = true → mayPage (s.pc t) = true) :
    Inv k { s with page := upd s.page t b } := by
  obtain ⟨i1, i2, i3, i4, i5, i6, i7, i8, i9, i10, i11, i12, i13, i14, i15, i16, i17, i18, i19, i20⟩ := h
  constructor <;> try assumption
  grind

theorem g_page (h : Inv k s) (hp : s.pc t = .allocM ∨ s.pc t = .cEvA) :
    Good (.ok { s with page := upd s.page t true }) := by
  refine ⟨k, page_inv h true ?_⟩
  rintro -
  rcases hp with hp | hp <;> rw [hp] <;> rfl

theorem g_release (h : Inv k s) (hp : s.pc t = .allocM ∨ s.pc t = .cEvA) : Good (releasePage t s) := by
  rw [releasePage_eq]
  · exact ⟨k, page_inv h false (by simp)⟩
  · intro _
    rcases hp with hp | hp
    · by_cases e : s.st = .inactive
      · exact .inl e
      · exact .inr (.inl (not_past h hp rfl rfl e).1)
    · refine .inr (.inr ?_)
      rw [h.gc t (by rw [hp]; simp), hp]; rfl

/-- Engages in the collection: leaves the threads which run. -/
theorem g_engage (h : Inv k s) {x y : Pc} {g : Gc} (hp : s.pc t = x) (o' : Option Nat)
    (hx : x = .suspM ∧ y = .susp ∨ (∃ w, x = .h0 w ∧ y = .h2 w))
    (hg : g = gcOf y) (ho : o' = if owns y then some t else none) (hpg : s.page t = false)
    (hi : s.st = .inactive → x = .suspM) :
    Good ((engage t g s).and fun s => .ok { s with owner := o', pc := upd s.pc t y }) := by
  have hxo : owns x = true := by
    rcases hx with ⟨rfl, _⟩ | ⟨w, rfl, _⟩
    · rfl
    · cases w <;> rfl
  have hxc : isCol x = false := by
    rcases hx with ⟨rfl, _⟩ | ⟨w, rfl, _⟩
    · rfl
    · cases w <;> rfl
  have hxt : x ≠ .out := by grind
  have fw : s.st = .init → ∃ b, s.pc k = .cWait b := by
    intro e
    obtain ⟨a, _⟩ := not_owns h hp hxo hxc (by rw [e]; simp)
    have := h.ph (by rw [e]; simp)
    rw [e] at this
    exact r_init _ this a
  have z : s.st ≠ .init → s.toStop = 0 := by
    intro e
    by_cases e' : s.toStop = 0
    · exact e'
    · have w := h.eng e'
      have : s.st ≠ .inactive := by
        intro e
        have := (h.col k).1 (r_isWait _ w)
        exact this.1 e
      exact absurd (r_wait _ _ (h.ph this) w) e
  unfold engage
  simp only []
  split
  · rename_i hi
    obtain ⟨b, hb⟩ := fw hi
    split
    · rename_i hd
      -- wake the collector up
      have h1 := signalEng_inv h
      have hp1 : (signalEng s).pc t = x := by
        show wakeEng (s.pc t) = x
        rw [hp]
        rcases hx with ⟨rfl, _⟩ | ⟨w, rfl, _⟩ <;> rfl
      have hb1 : (signalEng s).pc k = .cWait true := by
        show wakeEng (s.pc k) = _
        rw [hb]; rfl
      show Good (.ok { signalEng s with
        owner := o', gc := upd s.gc t g, toStop := dec s.toStop, pc := upd (signalEng s).pc t y })
      have e1 : (signalEng s).st = s.st := rfl
      have e2 : (signalEng s).gc = s.gc := rfl
      have e3 : (signalEng s).page = s.page := rfl
      rw [← e2]
      obtain ⟨q, hq⟩ : ∃ q, q = signalEng s := ⟨_, rfl⟩
      rw [← hq] at h1 hp1 hb1 e1 e2 e3 ⊢
      rw [← e1] at hi
      rw [← e3] at hpg
      clear e1 e2 e3 hq z fw h hp
      have kw := wk h1 y hp1 hxt
      have c1 := h1.col t
      have c2 := h1.col k
      have o1 := h1.own t
      have o2 := h1.own k
      have p1 := h1.ph
      have q1 := h1.stop
      have g1 := h1.gc t
      refine ⟨k, ?_⟩
      rcases hx with ⟨rfl, rfl⟩ | ⟨w, rfl, rfl⟩
      · subst ho hg
        finish h1
      · subst ho hg
        cases w <;> finish h1
    · rename_i hd
      have kw := wk h y hp hxt
      have kr := rn h y hp hxt
      have c1 := h.col t
      have c2 := h.col k
      have o1 := h.own t
      have o2 := h.own k
      have p1 := h.ph
      have q1 := h.stop
      have g1 := h.gc t
      unfold dec at hd ⊢
      refine ⟨k, ?_⟩
      rcases hx with ⟨rfl, rfl⟩ | ⟨w, rfl, rfl⟩
      · subst ho hg
        finish h
      · subst ho hg
        cases w <;> finish h
  · rename_i hn
    have z := z hn
    have hz : check (decide (s.toStop = 0)) (.ok { s with gc := upd s.gc t g }) =
        .ok { s with gc := upd s.gc t g } := by rw [z]; rfl
    rw [hz]
    show Good (.ok { s with owner := o', gc := upd s.gc t g, pc := upd s.pc t y })
    have kw := wk h y hp hxt
    have kr := rn h y hp hxt
    have c1 := h.col t
    have c2 := h.col k
    have o1 := h.own t
    have o2 := h.own k
    have p1 := h.ph
    have q1 := h.stop
    have g1 := h.gc t
    refine ⟨k, ?_⟩
    rcases hx with ⟨rfl, rfl⟩ | ⟨w, rfl, rfl⟩
    · subst ho hg
      finish h
    · subst ho hg
      cases w <;> finish h


theorem g_suspend (h : Inv k s) (hp : s.pc t = .suspM) : Good (suspendBody t s) := by
  unfold suspendBody
  refine good_check ?_ ?_
  · rw [h.gc t (by rw [hp]; simp), hp]; rfl
  · rw [releasePage_eq]
    · have h1 : Inv k { s with page := upd s.page t false } := page_inv h false (by simp)
      exact g_engage h1 (x := .suspM) (y := .susp) hp none (.inl ⟨rfl, rfl⟩) rfl rfl (by simp [upd]) (fun _ => rfl)
    · intro _
      by_cases e : s.st = .inactive
      · exact .inl e
      · exact .inr (.inl (not_past h hp rfl rfl e).1)

theorem g_helpRet (h : Inv k s) {w : Who} (hp : s.pc t = .h0 w) (hs : s.st = .inactive) :
    Good (goto t (.hRet w) s) := by
  have ha := h.h0a t
  have hpg := h.page t
  cases w
  · move h hp (.hRet .plain)
  · exact absurd hs (ha (by rw [hp]; rfl))
  · move h hp (.hRet .resume)

theorem g_helpBegin (h : Inv k s) {w : Who} (hp : s.pc t = .h0 w) : Good (helpBegin t w s) := by
  unfold helpBegin
  refine good_check ?_ ?_
  · rw [h.gc t (by rw [hp]; simp), hp]; cases w <;> rfl
  · split
    · exact g_helpRet h hp ‹_›
    · rename_i hs
      have hin : s.page t = true → s.st = .init := by
        intro hpg
        have m := h.page t (by rw [hp]; simp) hpg
        rw [hp] at m
        cases w
        · exact (not_past h hp rfl rfl hs).1
        · exact (not_past h hp rfl rfl hs).1
        · cases m
      refine good_check ?_ ?_
      · cases e : s.page t
        · rfl
        · simp [hin e]
      · rw [releasePage_eq (fun e => .inr (.inl (hin e)))]
        have h1 : Inv k { s with page := upd s.page t false } := page_inv h false (by simp)
        have := g_engage h1 (t := t) (x := .h0 w) (y := .h2 w) (g := .engaged) hp (some t) (.inr ⟨w, rfl, rfl⟩) rfl rfl
          (by simp [upd]) (fun e => absurd e hs)
        have ho : s.owner = some t := (h.own t).2 (by rw [hp]; cases w <;> rfl)
        have e : ((engage t .engaged { s with page := upd s.page t false }).and
              fun s => .ok { s with owner := some t, pc := upd s.pc t (.h2 w) }) =
            (engage t .engaged { s with page := upd s.page t false }).and (goto t (.h2 w)) := by
          unfold engage goto check
          simp only []
          split <;> split <;> simp [Res.and, signalEng, ho]
        rw [e] at this
        exact this

theorem g_walk (h : Inv k s) {w : Who} (hp : s.pc t = .h2 w) (hi : inWalk (s.pc k) = true) : Good (helperWalk t w s) := by
  unfold helperWalk drop
  move h hp (.hWalk w)

theorem g_wait (h : Inv k s) {w : Who} (hp : s.pc t = .h2 w) : Good (drop t (.hWait w false) s) := by
  have hs := h.h0a t (by rw [hp]; rfl)
  unfold drop
  move h hp (.hWait w false)


theorem g_helpBody (h : Inv k s) {w : Who} (hp : s.pc t = .h2 w) : Good (check (!s.page t) (helpBody t w s)) := by
  have hs := h.h0a t (by rw [hp]; rfl)
  obtain ⟨a, hk⟩ := not_owns h hp rfl rfl hs
  have p := h.ph hs
  refine good_check ?_ ?_
  · cases e : s.page t
    · rfl
    · have := h.page t (by rw [hp]; simp) e
      rw [hp] at this; cases this
  · unfold helpBody
    split
    · rename_i e
      rw [e] at p
      exact g_walk h hp (r_mark _ p a)
    · rename_i e
      rw [e] at p
      split
      · exact g_walk h hp (r_update _ p a)
      · exact g_wait h hp
    · exact g_wait h hp

theorem g_helperEnd (h : Inv k s) {w : Who} (hp : s.pc t = .hEnd w) : Good (helperEnd t w s) := by
  have hi := h.ws t (by rw [hp]; rfl)
  have hs := (h.col k).1 (r_inWalk _ hi)
  have hw : 0 < s.walk := by
    rw [h.walk]
    have := wk h .run hp (by simp)
    simp only [walking] at this
    simp at this
    omega
  unfold helperEnd
  refine good_check (by simpa using hw) ?_
  simp only []
  split
  · rename_i hz
    have h1 := signalWalk_inv h
    have hp1 : (signalWalk s).pc t = .hEnd w := by
      show wakeWalk (s.pc t) = _
      rw [hp]; rfl
    have hn : ∀ p, (signalWalk s).pc k ≠ .cWW p false := fun p => wakeWalk_cWW _ p
    show Good (.ok { signalWalk s with
      walk := (signalWalk s).walk - 1, owner := none, pc := upd (signalWalk s).pc t (.hWait w false) })
    have hs1 : (signalWalk s).st ≠ .inactive := hs.1
    have hw1 : 0 < (signalWalk s).walk := hw
    obtain ⟨q, hq⟩ : ∃ q, q = signalWalk s := ⟨_, rfl⟩
    rw [← hq] at h1 hp1 hn hs1 hw1 ⊢
    clear hz hq hw hi h hp hs
    move h1 hp1 (.hWait w false)
  · rename_i hz
    unfold drop
    have hs := hs.1
    move h hp (.hWait w false)

theorem g_helpCheck (h : Inv k s) {w : Who} (hp : s.pc t = .hChk w) : Good (helpCheck t w s) := by
  unfold helpCheck
  split
  · rename_i hs
    unfold goto
    have hpg := h.page t
    cases w
    · move h hp (.hRet .plain)
    · move h hp (.hRet .alloc)
    · move h hp (.hRet .resume)
  · rename_i hs
    unfold goto
    have hpg := h.page t
    move h hp (.h2 w)

theorem g_helpReturn (h : Inv k s) {w : Who} (hp : s.pc t = .hRet w) : Good (helpReturn t w s) := by
  have hpg := h.page t
  unfold helpReturn
  cases w
  · simp only []
    unfold drop
    move h hp .run
  · refine good_check ?_ ?_
    · cases e : s.page t
      · rfl
      · have := hpg (by rw [hp]; simp) e
        rw [hp] at this; cases this
    · unfold goto
      move h hp .allocM
  · simp only []
    unfold drop
    move h hp .run

theorem g_resume (h : Inv k s) (hp : s.pc t = .resM) : Good (resumeBody t s) := by
  unfold resumeBody
  refine good_check ?_ ?_
  · rw [h.gc t (by rw [hp]; simp), hp]; rfl
  · simp only []
    split
    · rename_i hs
      unfold drop
      have hpg := h.page t
      move h hp .run
    · rename_i hs
      unfold goto
      have hpg := h.page t
      move h hp (.h0 .resume)

theorem g_collect (h : Inv k s) (hp : s.pc t = .collM) : Good (collectBody t s) := by
  unfold collectBody
  split
  · rename_i hs
    unfold goto
    have hn : ∀ u, isCol (s.pc u) = false := by
      intro u
      cases e : isCol (s.pc u)
      · rfl
      · exact absurd hs ((h.col u).1 e).1
    have e1 : ∀ u, told (s.pc u) = false := fun u => by
      have := r_told (s.pc u); have := hn u; grind
    have e2 : ∀ u, isWait (s.pc u) = false := fun u => by
      have := r_isWait (s.pc u); have := hn u; grind
    have e3 : ∀ u, inWalk (s.pc u) = false := fun u => by
      have := r_inWalk (s.pc u); have := hn u; grind
    have e4 : ∀ u, past (s.pc u) = false := fun u => by
      have := r_isPast (s.pc u); have := hn u; grind
    obtain ⟨f1, f2, f3, f4, f5, f6, f7, f8, f9, f10, f11, f12, f13⟩ := known h .c2 hp (by simp)
    refine ⟨t, ?_⟩
    finish h
  · rename_i hs
    unfold goto
    move h hp (.h0 .plain)

end Verif.Stop
