import Verif.Obj.Firm
import Verif.Props.C23

/-!
C84: iterating over properties returns each property once, with its value.
-/
namespace Verif.Props

open Verif.Obj
open Verif.Obj.Spec (Chain)

variable {K V : Type} [DecidableEq K]

/-- What a program does: operations on objects, the start of an iteration (the previous one is abandoned), a turn of the iteration. -/
inductive IterOp (K V : Type) where
  | op (a : ObjOp K V)
  | start (o : Nat) (deep : Bool)
  | turn

inductive IterOut (K V : Type) where
  | out (r : Out V)
  | started
  | turn (r : Turn K V)
  /-- There is no iteration. -/
  | idle
  deriving DecidableEq

/-- The modelled code. -/
def iterRun (mem : Nat → Nat → Bool) (dyn : V → Bool) (H : K → Nat) : World K V → Option (Walk K) → List (IterOp K V) →
    Except Err (List (IterOut K V))
  | _, _, [] => .ok []
  | w, s, .op a :: ops =>
    match objStep mem dyn H w a with
    | .error e => .error e
    | .ok (w', r) => (iterRun mem dyn H w' s ops).map (.out r :: ·)
  | w, _, .start o deep :: ops =>
    match newWalk w o deep with
    | .error e => .error e
    | .ok s => (iterRun mem dyn H w (some s) ops).map (.started :: ·)
  | w, none, .turn :: ops => (iterRun mem dyn H w none ops).map (.idle :: ·)
  | w, some s, .turn :: ops =>
    match walkStep H w s with
    | .error e => .error e
    | .ok (s', r) => (iterRun mem dyn H w (some s') ops).map (.turn r :: ·)

namespace IterSpec

def Legal : Nat → List (IterOp K V) → Prop
  | _, [] => True
  | n, .op a :: ops => ObjSpec.LegalOp n a ∧ Legal (ObjSpec.count n a) ops
  | n, .start o _ :: ops => o < n ∧ Legal n ops
  | n, .turn :: ops => Legal n ops

/-- Meaning on finite maps.  `t` has the object of the iteration, the keys which the object has had since the start (`must`), and the keys
returned so far (`got`).  A property is returned if its key has not been returned before, and if the object, or for a deep iteration one of the
objects in its chain of prototypes, has it with this value at the moment.  The iteration is over when all keys in `must` have been returned. -/
def History (dyn : V → Bool) : List (SObj K V) → Option (Track K) → List (IterOp K V) → List (IterOut K V) → Prop
  | _, _, [], [] => True
  | sp, t, .op a :: ops, .out r :: outs => ∃ sp', ObjSpec.Step dyn sp a r sp' ∧ History dyn sp' (t.map (·.after a)) ops outs
  | sp, _, .start o d :: ops, .started :: outs => ∃ so, sp[o]? = some so ∧ History dyn sp (some ⟨o, d, fun k => so.map k ≠ none, []⟩) ops outs
  | sp, none, .turn :: ops, .idle :: outs => History dyn sp none ops outs
  | sp, some t, .turn :: ops, .turn r :: outs => Allowed sp t r ∧ History dyn sp (some (t.add r)) ops outs
  | _, _, _, _ => False

end IterSpec

theorem iterRun_spec {H : K → Nat} (mem : Nat → Nat → Bool) (hm : ∀ n c, 2 ^ 28 ≤ c → mem n c = false) (dyn : V → Bool) :
    ∀ (ops : List (IterOp K V)) {w : World K V} {sp : List (SObj K V)} (_ : Sim H w sp) (s : Option (Walk K)) (t : Option (Track K)),
    (s = none ∧ t = none ∨ ∃ s' t', s = some s' ∧ t = some t' ∧ Inv w sp s' t') → IterSpec.Legal sp.length ops →
    ∃ outs, iterRun mem dyn H w s ops = .ok outs ∧ IterSpec.History dyn sp t ops outs := by
  intro ops
  induction ops with
  | nil => intro w sp _ s t _ _; exact ⟨[], rfl, by cases t <;> trivial⟩
  | cons op ops ih =>
    intro w sp sim s t hst hl
    cases op with
    | op a =>
      rcases objStep_spec mem dyn sim a hl.1 with ⟨⟨n, c, h1, h2⟩, _⟩ | ⟨w1, out, sp1, e, _, sim1, st, _, hlen⟩
      · rw [hm n c h1] at h2; cases h2
      · have hle : sp.length ≤ sp1.length := by rw [hlen]; cases a <;> simp [ObjSpec.count]
        obtain ⟨outs, e2, h2⟩ := ih sim1 s (t.map (·.after a)) (by
          rcases hst with ⟨rfl, rfl⟩ | ⟨s', t', rfl, rfl, hi⟩
          · exact .inl ⟨rfl, rfl⟩
          · exact .inr ⟨s', _, rfl, rfl, hi.op sim sim1 (objStep_ext e) st hle⟩) (by rw [hlen]; exact hl.2)
        refine ⟨.out out :: outs, by simp only [iterRun, e, e2]; rfl, ?_⟩
        cases t <;> exact ⟨sp1, st, h2⟩
    | start o d =>
      obtain ⟨s1, so, e, hs, _, _, _, _, _, hi⟩ := newWalk_inv sim hl.1 d
      obtain ⟨outs, e2, h2⟩ := ih sim (some s1) _ (.inr ⟨s1, _, rfl, rfl, hi⟩) hl.2
      refine ⟨.started :: outs, by simp only [iterRun, e, e2]; rfl, ?_⟩
      cases t <;> exact ⟨so, hs, h2⟩
    | turn =>
      rcases hst with ⟨rfl, rfl⟩ | ⟨s', t', rfl, rfl, hi⟩
      · obtain ⟨outs, e2, h2⟩ := ih sim none none (.inl ⟨rfl, rfl⟩) hl
        exact ⟨.idle :: outs, by simp only [iterRun, e2]; rfl, h2⟩
      · obtain ⟨s1, r, e, d⟩ := walkStep_did sim hi.lt hi.table
        obtain ⟨h3, h4⟩ := hi.step sim d
        obtain ⟨outs, e2, h2⟩ := ih sim (some s1) _ (.inr ⟨s1, _, rfl, rfl, h4⟩) hl
        exact ⟨.turn r :: outs, by simp only [iterRun, e, e2]; rfl, h3, h2⟩

/-- An iteration, with any changes to any objects between its turns: a property is returned at most once, with the value which it has at that
moment in the object (for a deep iteration: in an object of its chain of prototypes), and when the iteration is over, every property which the
object has had all the time since the start has been returned.  Nothing is read outside of a table.

Missing from the full claim: requests for tables of more than 2^27 slots must be refused, as for C22. -/
theorem C84_iteration_partial (H : K → Nat) (dyn : V → Bool) (mem : Nat → Nat → Bool) (hm : ∀ n c, 2 ^ 28 ≤ c → mem n c = false)
    (ops : List (IterOp K V)) (hl : IterSpec.Legal 0 ops) :
    ∃ outs, iterRun mem dyn H ⟨[], [], 0⟩ none ops = .ok outs ∧ IterSpec.History dyn [] none ops outs :=
  iterRun_spec mem hm dyn ops (sim_empty H) none none (.inl ⟨rfl, rfl⟩) hl

theorem objRun_firm {H : K → Nat} {mem : Nat → Nat → Bool} {dyn : V → Bool} {k : K} : ∀ (ops : List (ObjOp K V)) {w w' : World K V}
    {outs : List (Out V × Nat)}, objRun mem dyn H w ops = .ok (w', outs) → (∀ o, ObjOp.del o k ∉ ops) → Firm k w → Firm k w' := by
  intro ops
  induction ops with
  | nil => intro w w' outs h _ hw; cases h; exact hw
  | cons op ops ih =>
    intro w w' outs h hd hw
    rw [objRun] at h
    split at h
    · cases h
    · rename_i w1 out e
      split at h
      · cases h
      · rename_i w2 outs2 e2
        cases h
        exact ih e2 (fun o hm => hd o (List.mem_cons_of_mem _ hm)) (objStep_firm e hw (fun o he => hd o (by rw [he]; exact List.mem_cons_self)))

/-- A whole shallow iteration ends and returns exactly the properties which can be read from the object, each once. -/
theorem C84_shallow (H : K → Nat) (dyn : V → Bool) (mem : Nat → Nat → Bool) (ops : List (ObjOp K V)) (hl : ObjSpec.Legal 0 ops)
    (w : World K V) (outs : List (Out V × Nat)) (hrun : objRun mem dyn H ⟨[], [], 0⟩ ops = .ok (w, outs)) (o : Nat)
    (ho : o < (ObjSpec.protos ops).length) :
    ∃ s n l, newWalk w o false = .ok s ∧ (∀ m, n ≤ m → walkAll H w m s = .ok l) ∧ (l.map Prod.fst).Nodup ∧
      ∀ k v, (k, v) ∈ l ↔ getProperty H w o k true = .ok (some v) := by
  obtain ⟨sp, sim, hp⟩ := objRun_protos mem dyn ops (sim_empty H) hl hrun
  simp only [List.map_nil, List.nil_append] at hp
  have hlen : sp.length = (ObjSpec.protos ops).length := by rw [← hp]; simp
  have hs : sp[o]? = some sp[o] := List.getElem?_eq_getElem (by omega)
  obtain ⟨s, n, l, h1, h2, h3, h4⟩ := walk_shallow sim hs
  refine ⟨s, n, l, h1, h2, h3, fun k v => ?_⟩
  rw [h4, getProperty_shallow sim hs k]
  exact ⟨fun h => by rw [h], fun h => by injection h⟩

/-- A whole deep iteration ends and returns each property once, with the value which reading it gives.  Every property which can be read is
returned, if no object has ever deleted a property of this name.

Missing from the full claim: properties deleted in an object are not returned even if a prototype has them (see `C84_deleted_violated`). -/
theorem C84_deep_partial (H : K → Nat) (dyn : V → Bool) (mem : Nat → Nat → Bool) (ops : List (ObjOp K V)) (hl : ObjSpec.Legal 0 ops)
    (w : World K V) (outs : List (Out V × Nat)) (hrun : objRun mem dyn H ⟨[], [], 0⟩ ops = .ok (w, outs)) (o : Nat)
    (ho : o < (ObjSpec.protos ops).length) :
    ∃ s n l, newWalk w o true = .ok s ∧ (∀ m, n ≤ m → walkAll H w m s = .ok l) ∧ (l.map Prod.fst).Nodup ∧
      (∀ k v, (k, v) ∈ l → getProperty H w o k false = .ok (some v)) ∧
      ∀ k v, (∀ o', ObjOp.del o' k ∉ ops) → getProperty H w o k false = .ok (some v) → (k, v) ∈ l := by
  obtain ⟨sp, sim, hp⟩ := objRun_protos mem dyn ops (sim_empty H) hl hrun
  simp only [List.map_nil, List.nil_append] at hp
  have hlen : sp.length = (ObjSpec.protos ops).length := by rw [← hp]; simp
  have hlt : o < sp.length := by omega
  obtain ⟨s, n, l, h1, h2, h3, h4, h5⟩ := walk_deep sim hlt
  refine ⟨s, n, l, h1, h2, h3, fun k v hm => ?_, fun k v hd hg => ?_⟩
  · obtain ⟨r, hr, hdp⟩ := getProperty_deep sim hlt k
    rw [hr, Deep.fun hdp (h4 k v hm)]
  · obtain ⟨r, hr, hdp⟩ := getProperty_deep sim hlt k
    rw [hr] at hg
    injection hg with hg
    subst hg
    exact h5 k v (Firm.noGap sim (objRun_firm ops hrun hd (by intro u tb h; simp at h))) hdp

/-! ### A deleted property hides the one of the prototype -/

/-- Operations, then a whole iteration: what it returns, and what reading property `k` gives. -/
def iterAfter (ops : List (ObjOp Nat Nat)) (o : Nat) (deep : Bool) (k : Nat) : Option (List (Nat × Nat) × Option Nat) :=
  match objRun (fun _ c => c ≤ 1024) (fun _ => false) (fun k => k % 4) ⟨[], [], 0⟩ ops with
  | .error _ => none
  | .ok (w, _) =>
    match newWalk w o deep with
    | .error _ => none
    | .ok s =>
      match walkAll (fun k => k % 4) w 100 s, getProperty (fun k => k % 4) w o k false with
      | .ok l, .ok r => some (l, r)
      | _, _ => none

/-- An object sets property 1 and deletes it; its prototype has property 1. -/
def hiddenOps : List (ObjOp Nat Nat) := [.new true none, .set 0 1 10, .set 0 2 20, .new true (some 0), .set 1 1 11, .set 1 3 33, .del 1 1]

/-- Reading property 1 gives the value of the prototype, but the deep iteration does not return it. -/
theorem C84_deleted_violated : ObjSpec.Legal 0 hiddenOps ∧ iterAfter hiddenOps 1 true 1 = some ([(3, 33), (2, 20)], some 10) :=
  ⟨by simp [hiddenOps, ObjSpec.Legal, ObjSpec.LegalOp, ObjSpec.count], by decide +kernel⟩

/-! ### Examples -/

/-- Without the deletion, the property of the object comes first and hides that of the prototype. -/
example : iterAfter (hiddenOps.take 6) 1 true 1 = some ([(1, 11), (3, 33), (2, 20)], some 11) := by decide +kernel

example : iterAfter hiddenOps 1 false 3 = some ([(3, 33)], some 33) := by decide +kernel

def exTurns (n : Nat) : List (IterOp Nat Nat) := List.replicate n .turn

/-- An iteration during which the object moves to a new table and a property is changed. -/
def exIter : List (IterOp Nat Nat) :=
  [.op (.new true none), .op (.set 0 1 10), .op (.set 0 2 20), .start 0 false] ++ exTurns 2 ++ [.op (.set 0 3 30), .op (.set 0 2 22)] ++ exTurns 3

def exIterOuts : List (IterOut Nat Nat) :=
  match iterRun (fun _ c => c ≤ 1024) (fun _ => false) (fun k => k % 4) ⟨[], [], 0⟩ none exIter with
  | .ok outs => outs
  | .error _ => []

example : IterSpec.Legal 0 exIter ∧ exIterOuts = [.out .ok, .out .ok, .out .ok, .started, .turn .more, .turn (.item 1 10),
    .out .ok, .out .ok, .turn (.item 2 22), .turn (.item 3 30), .turn .done] :=
  ⟨by simp [exIter, exTurns, IterSpec.Legal, ObjSpec.LegalOp, ObjSpec.count, List.replicate], by decide +kernel⟩

/-- The specification refuses a property returned twice, a value which the object does not have, and an end before all properties. -/
example (dyn : Nat → Bool) : ¬ IterSpec.History (K := Nat) dyn [⟨true, none, fun k => if k = 1 then some 10 else none⟩] none [.start 0 false, .turn, .turn]
    [.started, .turn (.item 1 10), .turn (.item 1 10)] := by
  rintro ⟨so, _, _, h, _⟩
  exact h.1 List.mem_cons_self

example (dyn : Nat → Bool) : ¬ IterSpec.History (K := Nat) dyn [⟨true, none, fun k => if k = 1 then some 10 else none⟩] none [.start 0 false, .turn]
    [.started, .turn .done] := by
  rintro ⟨so, hs, h, _⟩
  simp only [List.getElem?_cons_zero, Option.some.injEq] at hs
  subst hs
  have := h 1 (by simp)
  cases this

end Verif.Props
