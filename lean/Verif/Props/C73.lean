import Verif.Gc.CollectProof
import Verif.Gc.MarkTerm
import Verif.Props.C71

/-!
C73: a garbage collection ends: marking ends whatever the order in which threads take their
steps, and after memory ran out the collector tries again only as often as there are pages.
-/

namespace Verif.Gc

/-- An endless schedule in which the thread whose turn it is has something to do, as long as
there is anything to do. -/
def Fair (m : Marking) (s : Nat → Nat × Nat) : Prop :=
  ∀ k m', runMark (first s k) m = some m' → m'.isDone = false → Busy m' (s k).1 (s k).2

/-- Marking ends: there are such schedules, each leads to the end, and then the collection
goes on to move objects. -/
theorem C73_marking_ends {cfg : Cfg} {h : Heap} {i : Inst} (w : Wf cfg h i.kept)
    (sh : Shaped h i.kept) (n : Nat) :
    (∀ s, Fair (startMark (release cfg h) i n) s → ∃ k m,
      runMark (first s k) (startMark (release cfg h) i n) = some m ∧ m.isDone = true) ∧
    (∃ sch m, runMark sch (startMark (release cfg h) i n) = some m ∧ m.isDone = true) ∧
    ∀ m, (∃ sch, runMark sch (startMark (release cfg h) i n) = some m) → m.isDone = false →
      ∃ a b, Busy m a b := by
  have e1 := (release_same cfg h).trans (clear_same (release cfg h))
  have w1 : Wf cfg (clearMarking (release cfg h)) i.kept := e1.wf w
  have sh1 : Shaped (clearMarking (release cfg h)) i.kept := by
    intro r b hr hb r' hr' b' hb'
    rw [e1.bodyAt] at hb hb'
    exact sh r b (e1.reach.1 hr) hb r' hr' b' hb'
  have hcur : (clearMarking (release cfg h)).cur = none := release_cur cfg h
  have inv := start_inv (release cfg h) i n
  refine ⟨fun s hs => mark_ends w1 sh1 hcur inv s hs,
    can_end w1 sh1 hcur inv (by simp [startMark]), ?_⟩
  rintro m ⟨sch, hm⟩ hd
  refine busy_of_not_done ?_ hd
  have hlen : ∀ (sch : List (Nat × Nat)) (m0 : Marking), runMark sch m0 = some m →
      m.threads.length = m0.threads.length := by
    intro sch
    induction sch with
    | nil => intro m0 h; cases h; rfl
    | cons p sch ih =>
      obtain ⟨a, b⟩ := p
      intro m0 h
      simp only [runMark] at h
      split at h
      · rename_i m1 h1
        rw [ih m1 h, step_threads h1]
      · cases h
  intro he
  have := hlen sch _ hm
  rw [he] at this
  simp [startMark] at this

/-- Once marking is done, as many rounds suffice as there are pages, and one more: with this
many the loop ends by itself. -/
theorem C73_rounds_end {cfg : Cfg} {h : Heap} {i : Inst} (hu : 0 < cfg.unused)
    (w : Wf cfg h i.kept) (n : Nat) (sch : List (Nat × Nat)) {m : Marking}
    (hm : runMark sch (startMark (release cfg h) i n) = some m) (hd : m.isDone = true) :
    ∀ k, m.h.used.length < k → ∃ r, passes cfg k m.h i = some r := by
  have e1 := (release_same cfg h).trans (clear_same (release cfg h))
  have w1 : Wf cfg (clearMarking (release cfg h)) i.kept := e1.wf w
  have hcur : (clearMarking (release cfg h)).cur = none := release_cur cfg h
  have hflag : ∀ p ∈ (clearMarking (release cfg h)).used,
      (clearMarking (release cfg h)).flag p = false := by
    intro p hp
    have hp : p ∈ (release cfg h).used := hp
    simp [clearMarking, hp]
  obtain ⟨m', hm', inv⟩ := MInv.run w1 hcur sch (start_inv (release cfg h) i n)
  rw [hm] at hm'
  cases hm'
  obtain ⟨c0, m0⟩ := inv.closed w1 hcur hflag hd
  intro k hk
  have hlen : m.h.todo.length < k :=
    Nat.lt_of_le_of_lt (List.length_filter_le _ _) hk
  obtain ⟨h', f, ok, L', hp, _⟩ := passes_spec hu k m.h _ i c0 m0 hlen
  exact ⟨_, hp⟩

/-! ## Examples -/

/-- Marking the object and its table takes 33 steps of one thread. -/
example : ((runMark (List.replicate 32 (0, 0)) (startMark (release exCfg exHeap) exInst 0)).map
      Marking.isDone = some false) ∧
    (runMark (List.replicate 33 (0, 0)) (startMark (release exCfg exHeap) exInst 0)).map
      Marking.isDone = some true := by decide +kernel

/-- An object which is its own table of properties would be marked for ever. -/
def knotHeap : Heap :=
  { exHeap with cell := fun p s =>
      if p = 0 ∧ s = 0 then some ⟨.own 7, .object (.heap 0 0) .bad none⟩ else none }

example : (runMark (List.replicate 300 (0, 0)) (startMark (release exCfg knotHeap)
    { exInst with protos := { exInst.protos with object := .heap 0 0, panic := .bad } } 0)).map
      Marking.isDone = some false := by decide +kernel

/-- Two rounds are needed when memory runs out in the middle of a page. -/
example : (match runMark tightSch (startMark (release exCfg tightHeap) tightInst 1) with
    | some m => ((passes exCfg 1 m.h tightInst).isSome, (passes exCfg 2 m.h tightInst).isSome)
    | none => (false, false)) = (false, true) := by decide +kernel

end Verif.Gc
