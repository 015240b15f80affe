import Verif.Gc.CollectProof

/-!
C71: a garbage collection preserves everything that the program can reach: the same objects
with the same contents, linked in the same way, whatever the number of threads that mark,
their order, and the moment at which memory runs out.
-/

namespace Verif.Gc

/-- The full claim, for all roots of the instance. -/
def C71_full : Prop := ∀ (cfg : Cfg) (h : Heap) (i : Inst) (n : Nat) (sch : List (Nat × Nat)),
  0 < cfg.unused → Wf cfg h i.refs →
    ∃ h' f ok, collect cfg h i n sch = some (h', i.move f, ok) ∧
      Preserved cfg f h h' i.refs ∧ Wf cfg h' (i.move f).refs

/-- The claim for all roots but the prototypes of "panic" and "ctrl-c".  What is missing: those
two prototypes, which the collector neither marks nor updates. -/
theorem C71_collect_partial {cfg : Cfg} {h : Heap} {i : Inst} (hu : 0 < cfg.unused)
    (w : Wf cfg h i.kept) (n : Nat) (sch : List (Nat × Nat)) :
    ∃ h' f ok, collect cfg h i n sch = some (h', (i.move f).keepTwo i, ok) ∧
      Preserved cfg f h h' i.kept ∧ Wf cfg h' ((i.move f).keepTwo i).kept := by
  obtain ⟨h', f, ok, h1, h2, h3, _⟩ := collect_spec hu w n sch
  exact ⟨h', f, ok, h1, h2, by rw [kept_move]; exact h3⟩

/-! ## Roots which are forgotten -/

def exCfg : Cfg := ⟨8, 2, 4, fun | .heap p s => 4096 * p + 64 * s + 1 | _ => 1, 16⟩

/-- A dead number, an object with its table, and the prototype of "panic". -/
def exCell (p s : Nat) : Option Obj :=
  match p, s with
  | 0, 0 => some ⟨.own 1, .integer 7⟩
  | 0, 1 => some ⟨.own 2, .object (.heap 0 3) .bad none⟩
  | 0, 3 => some ⟨.own 2, .objStore [(.val 1, .heap 0 1)] .bad 0⟩
  | 0, 5 => some ⟨.own 2, .object .bad (.heap 0 1) none⟩
  | _, _ => none

def exHeap : Heap :=
  ⟨exCell, fun p => if p = 0 then 7 else 0, fun _ => false, fun _ _ => ⟨false, false⟩, [0], [],
    none, 1, [3], fun _ => none, []⟩

def exInst : Inst :=
  ⟨.bad, ⟨.heap 0 1, .bad, .bad, .bad, .bad, .bad, .bad, .bad, .bad, .bad, .bad, .bad, .bad,
    .heap 0 5, .bad, .bad, .bad⟩, ⟨.bad, .bad, .bad, .bad, .bad⟩, [], []⟩

def exSch : List (Nat × Nat) := List.replicate 60 (0, 0)

theorem exHeap_tile : ∀ s, Tile (exHeap.cell 0) 0 s → s < 7 → s = 0 ∨ s = 1 ∨ s = 3 ∨ s = 5 := by
  have t5 : ∀ s, Tile (exHeap.cell 0) 5 s → s < 7 → s = 5 := by
    intro s h hs
    cases h with
    | nil => rfl
    | cons h1 _ h3 => cases h1; have := h3.le; omega
  have t3 : ∀ s, Tile (exHeap.cell 0) 3 s → s < 7 → s = 3 ∨ s = 5 := by
    intro s h hs
    cases h with
    | nil => exact Or.inl rfl
    | cons h1 _ h3 => cases h1; exact Or.inr (t5 s h3 hs)
  have t1 : ∀ s, Tile (exHeap.cell 0) 1 s → s < 7 → s = 1 ∨ s = 3 ∨ s = 5 := by
    intro s h hs
    cases h with
    | nil => exact Or.inl rfl
    | cons h1 _ h3 => cases h1; exact Or.inr (t3 s h3 hs)
  intro s h hs
  cases h with
  | nil => exact Or.inl rfl
  | cons h1 _ h3 => cases h1; exact Or.inr (t1 s h3 hs)

theorem exHeap_all : Tile (exHeap.cell 0) 0 7 ∧ Tile (exHeap.cell 0) 0 1 ∧
    Tile (exHeap.cell 0) 0 3 ∧ Tile (exHeap.cell 0) 0 5 := by
  have c0 : ∀ e, Tile (exHeap.cell 0) 1 e → Tile (exHeap.cell 0) 0 e := fun e h =>
    .cons (n := 1) rfl (by decide) h
  have c1 : ∀ e, Tile (exHeap.cell 0) 3 e → Tile (exHeap.cell 0) 1 e := fun e h =>
    .cons (n := 2) rfl (by decide) h
  have c3 : ∀ e, Tile (exHeap.cell 0) 5 e → Tile (exHeap.cell 0) 3 e := fun e h =>
    .cons (n := 2) rfl (by decide) h
  have c5 : ∀ e, Tile (exHeap.cell 0) 7 e → Tile (exHeap.cell 0) 5 e := fun e h =>
    .cons (n := 2) rfl (by decide) h
  exact ⟨c0 _ (c1 _ (c3 _ (c5 _ (.nil _)))), c0 _ (.nil _), c0 _ (c1 _ (.nil _)),
    c0 _ (c1 _ (c3 _ (.nil _)))⟩

theorem exHeap_reach {r : Ref} (hr : Reach exHeap exInst.refs r) :
    (∃ v, r = .val v) ∨ r = .bad ∨ r = .heap 0 1 ∨ r = .heap 0 3 ∨ r = .heap 0 5 := by
  induction hr with
  | root hm =>
    simp [Inst.refs, exInst] at hm
    grind
  | step _ hb hm ih =>
    rcases ih with ⟨v, rfl⟩ | rfl | rfl | rfl | rfl
    · cases hb
    · cases hb
    · cases hb; simp [Body.refs] at hm; grind
    · cases hb; simp [Body.refs] at hm; grind
    · cases hb; simp [Body.refs] at hm; grind

/-- This heap is well formed. -/
theorem exHeap_wf : Wf exCfg exHeap exInst.refs := by
  refine ⟨⟨by decide, by decide, by decide, ?_⟩, ?_, ?_, ?_, ?_⟩
  · rintro p (hp | hp)
    · have hp : p ∈ [0] := hp
      simp only [List.mem_singleton] at hp
      subst hp
      exact ⟨by decide, exHeap_all.1⟩
    · cases hp
  · intro r hr
    have h0 : exHeap.inUse 0 := Or.inl (by decide)
    rcases exHeap_reach hr with ⟨v, rfl⟩ | rfl | rfl | rfl | rfl
    · trivial
    · trivial
    · exact ⟨h0, by decide, exHeap_all.2.1⟩
    · exact ⟨h0, by decide, exHeap_all.2.2.1⟩
    · exact ⟨h0, by decide, exHeap_all.2.2.2⟩
  · rintro p s n r ⟨hp | hp, hs, ht⟩ hc
    · have hp : p ∈ [0] := hp
      simp only [List.mem_singleton] at hp
      subst hp
      rcases exHeap_tile s ht hs with rfl | rfl | rfl | rfl <;> cases hc
    · cases hp
  · intro r d n hr hb
    rcases exHeap_reach hr with ⟨v, rfl⟩ | rfl | rfl | rfl | rfl <;> cases hb
  · intro r q d hr hb
    rcases exHeap_reach hr with ⟨v, rfl⟩ | rfl | rfl | rfl | rfl <;> cases hb

theorem exHeap_lost : (collect exCfg exHeap exInst 0 exSch).map
    (fun x => (x.2.1.protos.panic, bodyAt x.1 (.heap 0 5), x.2.2)) =
      some (.heap 0 5, none, true) := by decide +kernel

/-- After a collection the instance still refers to the place where the prototype of "panic"
was, and there is no object any more. -/
theorem C71_panic_violated : ¬ C71_full := by
  intro hf
  obtain ⟨h', f, ok, h1, h2, _⟩ := hf exCfg exHeap exInst 0 exSch (by decide) exHeap_wf
  have hl := exHeap_lost
  rw [h1] at hl
  have hl : some (f (.heap 0 5), bodyAt h' (.heap 0 5), ok) = some (.heap 0 5, none, true) := hl
  simp only [Option.some.injEq, Prod.mk.injEq] at hl
  obtain ⟨e1, e2, _⟩ := hl
  obtain ⟨b', h3, _⟩ := h2.body (.heap 0 5) (.object .bad (.heap 0 1) none)
    (.root (by decide)) rfl
  rw [e1, e2] at h3
  cases h3

/-! ## Examples -/

/-- The object and its table have moved to another page, and still refer to each other. -/
example : (collect exCfg exHeap exInst 0 exSch).map (fun x => (x.2.1.protos.object,
    bodyAt x.1 (.heap 1 0), bodyAt x.1 (.heap 1 2))) =
      some (.heap 1 0, some (.object (.heap 1 2) .bad none),
        some (.objStore [(.val 1, .heap 1 0)] .bad 0)) := by decide +kernel

example : (collect exCfg exHeap exInst 0 exSch).map (fun x => (x.2.2, x.1.used, x.1.free)) =
    some (true, [1], [0, 2, 3]) := by decide +kernel

/-- A heap in which memory runs out in the middle of page 2. -/
def tightCell (p s : Nat) : Option Obj :=
  match p, s with
  | 0, 0 => some ⟨.own 8, .integer 7⟩
  | 1, 0 => some ⟨.own 4, .object (.heap 2 0) .bad none⟩
  | 1, 4 => some ⟨.own 4, .integer 8⟩
  | 2, 0 => some ⟨.own 3, .objStore [(.val 1, .heap 1 0), (.val 2, .huge 0)] .bad 0⟩
  | 2, 3 => some ⟨.own 2, .object .bad (.heap 1 0) none⟩
  | 2, 5 => some ⟨.own 1, .tracker (.huge 0)⟩
  | 2, 6 => some ⟨.own 2, .integer 9⟩
  | _, _ => none

def tightHeap : Heap :=
  ⟨tightCell, fun p => if p < 3 then 8 else 0, fun _ => false, fun _ _ => ⟨false, false⟩,
    [0, 1, 2], [], none, 3, [],
    fun k => if k = 0 then some ⟨.heap 2 5, .arrStore [.heap 2 3] .bad 0⟩ else none, []⟩

def tightInst : Inst :=
  { exInst with
    args := .heap 2 3
    protos := { exInst.protos with object := .heap 1 0, panic := .bad } }

def tightSch : List (Nat × Nat) := (List.replicate 40 [(0, 0), (1, 0)]).flatten

/-- Two threads mark, two rounds are needed, and everything is there. -/
example : (collect exCfg tightHeap tightInst 1 tightSch).map (fun x => (x.2.1.protos.object,
    x.2.1.args, x.2.2)) = some (.heap 0 0, .heap 1 0, true) := by decide +kernel

example : (collect exCfg tightHeap tightInst 1 tightSch).map (fun x =>
    ([.heap 0 0, .heap 0 4, .heap 1 0, .heap 1 2, .huge 0].map (bodyAt x.1),
      (x.1.huge 0).map Huge.back)) =
    some ([some (.object (.heap 0 4) .bad none),
      some (.objStore [(.val 1, .heap 0 0), (.val 2, .huge 0)] .bad 0),
      some (.object .bad (.heap 0 0) none), some (.tracker (.huge 0)),
      some (.arrStore [.heap 1 0] .bad 0)], some (.heap 1 2)) := by decide +kernel

/-- A slice of a string keeps its distance from the string. -/
def sliceHeap : Heap :=
  { exHeap with
    cell := fun p s =>
      match p, s with
      | 0, 0 => some ⟨.own 3, .integer 7⟩
      | 0, 3 => some ⟨.own 2, .string 5⟩
      | 0, 5 => some ⟨.own 2, .strRef (.heap 0 3) (64 * 3 + 1 + 20) 9⟩
      | _, _ => none }

example : (collect exCfg sliceHeap { exInst with
      args := .heap 0 5
      protos := { exInst.protos with object := .bad } } 0 exSch).map
    (fun x => (x.2.1.args, bodyAt x.1 (.heap 1 2), bodyAt x.1 (.heap 1 0))) =
    some (.heap 1 2, some (.strRef (.heap 1 0) (4096 + 1 + 20) 9), some (.string 5)) := by
  decide +kernel

end Verif.Gc
