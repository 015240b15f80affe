import Verif.Gc.CollectProof
import Verif.Props.C71

/-!
C72: after a garbage collection which succeeds, no object is left that the program cannot reach;
what lies between the objects is opaque filler.
-/

namespace Verif.Gc

/-- Nothing but what could be reached is left, and nothing else can be reached.  This does not
count the prototypes of "panic" and "ctrl-c" as reachable (see C71). -/
theorem C72_exact {cfg : Cfg} {h : Heap} {i : Inst} (hu : 0 < cfg.unused)
    (w : Wf cfg h i.kept) (n : Nat) (sch : List (Nat × Nat)) :
    ∃ h' f ok, collect cfg h i n sch = some (h', (i.move f).keepTwo i, ok) ∧
      Preserved cfg f h h' i.kept ∧ (ok = true → Exact f h h' i.kept) ∧
      ∀ r', Reach h' (i.kept.map f) r' → ∃ r, Reach h i.kept r ∧ r' = f r := by
  obtain ⟨h', f, ok, h1, h2, _, h3, h4, _⟩ := collect_spec hu w n sch
  exact ⟨h', f, ok, h1, h2, h4, h3⟩

/-! ## Examples -/

/-- Two of the four objects are left. -/
example : (collect exCfg exHeap exInst 0 exSch).map (fun x =>
    x.1.used.map fun p => (p, x.1.num p, (List.range (x.1.num p)).filterMap (x.1.cell p))) =
    some [(1, 4, [⟨.own 2, .object (.heap 1 2) .bad none⟩,
      ⟨.own 2, .objStore [(.val 1, .heap 1 0)] .bad 0⟩])] := by decide +kernel

/-- A page with little to gain is kept, and the dead object becomes opaque. -/
example : (collect { exCfg with unused := 3 } exHeap exInst 0 exSch).map (fun x =>
    (x.2.2, x.1.used.map fun p => (p, (List.range (x.1.num p)).filterMap (x.1.cell p)))) =
    some (true, [(1, [⟨.own 2, .object (.heap 1 2) .bad none⟩,
      ⟨.own 2, .objStore [(.val 1, .heap 1 0)] .bad 0⟩])]) := by decide +kernel

example : (collect { exCfg with unused := 4 } exHeap exInst 0 exSch).map (fun x =>
    (x.2.2, x.1.used.map fun p => (p, (List.range (x.1.num p)).filterMap (x.1.cell p)))) =
    some (true, [(0, [⟨.own 1, .opaque 0⟩, ⟨.own 2, .object (.heap 0 3) .bad none⟩,
      ⟨.own 2, .objStore [(.val 1, .heap 0 1)] .bad 0⟩, ⟨.own 2, .opaque 0⟩])]) := by
  decide +kernel

end Verif.Gc
