import Verif.Props.C71

/-!
C74: a garbage collection calls the finalizers of exactly those objects which the program cannot
reach any more, each of them once, whether or not memory runs out on the way.
-/

namespace Verif.Gc

/-- The full claim.  When marking cannot be finished for lack of memory, no finalizer is called. -/
def C74_full : Prop := ∀ (cfg : Cfg) (h : Heap) (i : Inst) (n : Nat) (sch : List (Nat × Nat)),
  0 < cfg.unused → Wf cfg h i.kept →
    ∃ h' i' ok, collect cfg h i n sch = some (h', i', ok) ∧ ∃ l, h'.log = h.log ++ l ∧
      (∀ r f, (r, f) ∈ l → Due h i.kept r f) ∧ l.Nodup ∧
      ((∀ r f, Due h i.kept r f → (r, f) ∈ l) ∨ (l = [] ∧ ok = false))

/-- Only finalizers of objects which cannot be reached are called, none is forgotten, and none
is called twice unless it is that of a module.  What is missing: a module's finalizer is called
once. -/
theorem C74_finalizers_partial {cfg : Cfg} {h : Heap} {i : Inst} (hu : 0 < cfg.unused)
    (w : Wf cfg h i.kept) (n : Nat) (sch : List (Nat × Nat)) :
    ∃ h' i' ok, collect cfg h i n sch = some (h', i', ok) ∧ ∃ l, h'.log = h.log ++ l ∧
      (∀ r f, (r, f) ∈ l → Due h i.kept r f) ∧ (NoModule h i.kept → l.Nodup) ∧
      ((∀ r f, Due h i.kept r f → (r, f) ∈ l) ∨ (l = [] ∧ ok = false)) := by
  obtain ⟨h', f, ok, h1, _, _, _, _, h2⟩ := collect_spec hu w n sch
  exact ⟨h', _, ok, h1, h2⟩

/-! ## A module is finalized twice -/

/-- A module which cannot be reached, and an object which can, for which there is no room. -/
def modHeap : Heap :=
  { exHeap with
    cell := fun p s =>
      match p, s with
      | 0, 0 => some ⟨.own 3, .module .bad .bad .bad .bad .bad .bad .bad (some 5) 0⟩
      | 0, 3 => some ⟨.own 2, .object .bad .bad none⟩
      | _, _ => none
    num := fun p => if p = 0 then 5 else 0
    pools := [] }

def modInst : Inst :=
  { exInst with
    args := .heap 0 3
    protos := { exInst.protos with object := .bad, panic := .bad } }

theorem modHeap_reach {r : Ref} (hr : Reach modHeap modInst.kept r) :
    r = .bad ∨ r = .heap 0 3 := by
  induction hr with
  | root hm =>
    simp [Inst.kept, modInst, exInst] at hm
    grind
  | step _ hb hm ih =>
    rcases ih with rfl | rfl
    · cases hb
    · cases hb; simp [Body.refs] at hm; grind

theorem modHeap_tile : ∀ s, Tile (modHeap.cell 0) 0 s → s < 5 → s = 0 ∨ s = 3 := by
  intro s h hs
  cases h with
  | nil => exact Or.inl rfl
  | cons h1 _ h3 =>
    cases h1
    cases h3 with
    | nil => exact Or.inr rfl
    | cons h1 _ h3 => cases h1; have := h3.le; omega

theorem modHeap_all : Tile (modHeap.cell 0) 0 5 ∧ Tile (modHeap.cell 0) 0 3 :=
  ⟨.cons (n := 3) rfl (by decide) (.cons (n := 2) rfl (by decide) (.nil _)),
    .cons (n := 3) rfl (by decide) (.nil _)⟩

theorem modHeap_wf : Wf exCfg modHeap modInst.kept := by
  have hp : ∀ p, modHeap.inUse p → p = 0 := by
    rintro p (hp | hp)
    · have hp : p ∈ [0] := hp
      simpa using hp
    · cases hp
  refine ⟨⟨by decide, by decide, by decide, ?_⟩, ?_, ?_, ?_, ?_⟩
  · intro p hu
    obtain rfl := hp p hu
    exact ⟨by decide, modHeap_all.1⟩
  · intro r hr
    rcases modHeap_reach hr with rfl | rfl
    · trivial
    · exact ⟨Or.inl (by decide), by decide, modHeap_all.2⟩
  · rintro p s n r ⟨hu, hs, ht⟩ hc
    obtain rfl := hp p hu
    rcases modHeap_tile s ht hs with rfl | rfl <;> cases hc
  · intro r d n hr hb
    rcases modHeap_reach hr with rfl | rfl <;> cases hb
  · intro r q d hr hb
    rcases modHeap_reach hr with rfl | rfl <;> cases hb

theorem modHeap_twice : (collect exCfg modHeap modInst 0 exSch).map (fun x => x.1.log) =
    some [(.heap 0 0, 5), (.heap 0 0, 5)] := by decide +kernel

/-- When memory runs out after a module has been finalized, it is finalized again. -/
theorem C74_module_violated : ¬ C74_full := by
  intro hf
  obtain ⟨h', i', ok, h1, l, h2, _, h3, _⟩ :=
    hf exCfg modHeap modInst 0 exSch (by decide) modHeap_wf
  have ht := modHeap_twice
  rw [h1] at ht
  simp only [Option.map_some, Option.some.injEq] at ht
  rw [h2] at ht
  have ht : l = [(.heap 0 0, 5), (.heap 0 0, 5)] := ht
  rw [ht] at h3
  simp at h3

/-! ## Examples -/

/-- The objects of page 0: one that can be reached, an object, an external storage and a tracker
which cannot. -/
def finHeap : Heap :=
  { exHeap with
    cell := fun p s =>
      match p, s with
      | 0, 0 => some ⟨.own 1, .object .bad .bad (some 1)⟩
      | 0, 1 => some ⟨.own 1, .object .bad .bad (some 2)⟩
      | 0, 2 => some ⟨.own 2, .bufExt 77 (some 3)⟩
      | 0, 4 => some ⟨.own 1, .tracker (.huge 0)⟩
      | 0, 5 => some ⟨.own 2, .integer 9⟩
      | _, _ => none
    huge := fun k => if k = 0 then some ⟨.heap 0 4, .object .bad .bad (some 4)⟩ else none }

/-- Three finalizers are called; the one of the object which can be reached is not. -/
example : (collect exCfg finHeap { modInst with args := .heap 0 1 } 0 exSch).map
    (fun x => (x.1.log, x.2.2)) =
    some ([(.heap 0 0, 1), (.heap 0 2, 3), (.huge 0, 4)], true) := by decide +kernel

/-- Also when there is no room for the object which can be reached. -/
example : (collect exCfg { finHeap with pools := [] } { modInst with args := .heap 0 1 } 0
    exSch).map (fun x => (x.1.log, x.2.2)) =
    some ([(.heap 0 0, 1), (.heap 0 2, 3), (.huge 0, 4)], false) := by decide +kernel

end Verif.Gc
