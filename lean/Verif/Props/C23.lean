import Verif.Props.C22

/-!
C23: property lookup follows the prototype chain.

The statements are about worlds reached by any history of operations which has ended (`objRun … = .ok …`; see C22 for the histories which do not
end well).  Nothing is assumed about allocation.
-/
namespace Verif.Props
open Verif Verif.Obj

variable {K V : Type} [DecidableEq K]

namespace ObjSpec

/-- The prototypes given to the objects when they were created, in order. -/
def protos : List (ObjOp K V) → List (Option Nat)
  | [] => []
  | .new _ q :: ops => q :: protos ops
  | _ :: ops => protos ops

/-- The first value along a chain of prototypes, where `own o` is the value which object `o` itself holds. -/
inductive Along (pr : List (Option Nat)) (own : Nat → Option V) : Nat → Option V → Prop
  | here {o v} : own o = some v → Along pr own o (some v)
  | up {o p r} : own o = none → pr[o]? = some (some p) → Along pr own p r → Along pr own o r
  | stop {o} : own o = none → pr[o]? = some none → Along pr own o none

/-- Is this operation a write or a deletion of this property? -/
def Touches (op : ObjOp K V) (o : Nat) (k : K) : Prop :=
  match op with
  | .set o' k' _ => o' = o ∧ k' = k
  | .del o' k' => o' = o ∧ k' = k
  | _ => False

end ObjSpec

omit [DecidableEq K] in
theorem bind_protos [DecidableEq K] (sp : List (SObj K V)) (o : Nat) (k : K) (ov : Option V) :
    (Spec.bind sp o k ov).map (·.proto) = sp.map (·.proto) := by
  unfold Spec.bind
  split
  · rename_i so h
    apply List.ext_getElem?
    intro i
    simp only [List.getElem?_map, List.getElem?_set]
    split
    · rename_i e; subst e
      have hlt := (List.getElem?_eq_some_iff.mp h).1
      have he := (List.getElem?_eq_some_iff.mp h).2
      simp [hlt, he]
    · rfl
  · rfl

theorem step_protos {dyn : V → Bool} {sp sp' : List (SObj K V)} {op : ObjOp K V} {out : Out V} (h : ObjSpec.Step dyn sp op out sp') :
    sp'.map (·.proto) = sp.map (·.proto) ++ ObjSpec.protos [op] := by
  have hw : ∀ o k ov, Spec.Wrote dyn sp o k ov out sp' → sp'.map (·.proto) = sp.map (·.proto) := by
    rintro o k ov ⟨so, _, ⟨_, _, _, _, _, rfl⟩ | ⟨_, _, rfl⟩ | ⟨_, rfl⟩⟩
    · rfl
    · exact bind_protos sp o k ov
    · rfl
  cases op with
  | new p q => obtain ⟨_, rfl⟩ := h; simp [ObjSpec.protos]
  | set o k v =>
    obtain ⟨so, _, h1, h2⟩ := h
    simp only [ObjSpec.protos, List.append_nil]
    cases hp : so.props with
    | false => rw [(h1 hp).2]
    | true => exact hw _ _ _ (h2 hp)
  | del o k =>
    obtain ⟨so, _, h1, h2⟩ := h
    simp only [ObjSpec.protos, List.append_nil]
    cases hp : so.props with
    | false => rw [(h1 hp).2]
    | true => exact hw _ _ _ (h2 hp)
  | get o k => obtain ⟨so, _, rfl, _⟩ := h; simp [ObjSpec.protos]
  | getDeep o k => obtain ⟨so, _, rfl, _⟩ := h; simp [ObjSpec.protos]

omit [DecidableEq K] in
theorem protos_cons (op : ObjOp K V) (ops : List (ObjOp K V)) : ObjSpec.protos (op :: ops) = ObjSpec.protos [op] ++ ObjSpec.protos ops := by
  cases op <;> rfl

/-- As `objRun_spec`, with the prototypes. -/
theorem objRun_protos {H : K → Nat} (mem : Nat → Nat → Bool) (dyn : V → Bool) :
    ∀ (ops : List (ObjOp K V)) {w : World K V} {sp : List (SObj K V)} (_ : Sim H w sp), ObjSpec.Legal sp.length ops →
    ∀ {w' : World K V} {outs : List (Out V × Nat)}, objRun mem dyn H w ops = .ok (w', outs) →
    ∃ sp', Sim H w' sp' ∧ sp'.map (·.proto) = sp.map (·.proto) ++ ObjSpec.protos ops := by
  intro ops
  induction ops with
  | nil => intro w sp s _ w' outs h; cases h; exact ⟨sp, s, by simp [ObjSpec.protos]⟩
  | cons op ops ih =>
    intro w sp s hl w' outs h
    rcases objStep_spec mem dyn s op hl.1 with ⟨_, e⟩ | ⟨w1, out, sp1, e, hq, s1, st, hf, hlen⟩
    · simp [objRun, e] at h
    · simp only [objRun, e] at h
      split at h
      · cases h
      · rename_i w2 outs2 e2
        cases h
        obtain ⟨sp2, s2, hp⟩ := ih s1 (by rw [hlen]; exact hl.2) e2
        refine ⟨sp2, s2, ?_⟩
        rw [hp, step_protos st, protos_cons op ops, List.append_assoc]

/-- The values objects hold themselves. -/
theorem own_of_sim {H : K → Nat} {w : World K V} {sp : List (SObj K V)} (s : Sim H w sp) :
    ∃ own : Nat → K → Option V, (∀ o < sp.length, ∀ k, getProperty H w o k true = .ok (own o k)) ∧
      ∀ o so, sp[o]? = some so → own o = so.map := by
  refine ⟨fun o => match sp[o]? with | some so => so.map | none => fun _ => none, ?_, ?_⟩
  · intro o ho k
    have h : sp[o]? = some sp[o] := List.getElem?_eq_getElem ho
    simp only [h]
    exact getProperty_shallow s h k
  · intro o so h; simp only [h]

/-- Shallow reads always succeed, and deep reads return the value held by the first object along the chain of prototypes which has the
property. -/
theorem C23_lookup (H : K → Nat) (dyn : V → Bool) (mem : Nat → Nat → Bool) (ops : List (ObjOp K V)) (hl : ObjSpec.Legal 0 ops)
    (w : World K V) (outs : List (Out V × Nat)) (hrun : objRun mem dyn H ⟨[], [], 0⟩ ops = .ok (w, outs)) :
    ∃ own : Nat → K → Option V,
      (∀ o < (ObjSpec.protos ops).length, ∀ k, getProperty H w o k true = .ok (own o k)) ∧
      (∀ o < (ObjSpec.protos ops).length, ∀ k, ∃ r, getProperty H w o k false = .ok r ∧
        ObjSpec.Along (ObjSpec.protos ops) (fun o => own o k) o r) := by
  obtain ⟨sp, s, hp⟩ := objRun_protos mem dyn ops (sim_empty H) hl hrun
  obtain ⟨own, h1, h2⟩ := own_of_sim s
  simp only [List.map_nil, List.nil_append] at hp
  have hlen : sp.length = (ObjSpec.protos ops).length := by rw [← hp]; simp
  refine ⟨own, fun o ho k => h1 o (by omega) k, ?_⟩
  intro o ho k
  obtain ⟨r, e, hd⟩ := getProperty_deep s (show o < sp.length by omega) k
  refine ⟨r, e, ?_⟩
  clear ho e
  induction hd with
  | here ho hv => exact .here (by rw [h2 _ _ ho]; exact hv)
  | up ho hv hpr _ ih => exact .up (by rw [h2 _ _ ho]; exact hv) (by rw [← hp]; simp [ho, hpr]) ih
  | stop ho hv hpr => exact .stop (by rw [h2 _ _ ho]; exact hv) (by rw [← hp]; simp [ho, hpr])

/-- An operation changes nothing that any object holds, except for the property it writes or deletes in its own object. -/
theorem C23_frame (H : K → Nat) (dyn : V → Bool) (mem : Nat → Nat → Bool) (ops : List (ObjOp K V)) (op : ObjOp K V)
    (hl : ObjSpec.Legal 0 ops) (hop : ObjSpec.LegalOp (ObjSpec.protos ops).length op)
    (w w' : World K V) (outs : List (Out V × Nat)) (out : Out V) (hrun : objRun mem dyn H ⟨[], [], 0⟩ ops = .ok (w, outs))
    (hstep : objStep mem dyn H w op = .ok (w', out)) (o : Nat) (ho : o < (ObjSpec.protos ops).length) (k : K) (ht : ¬ ObjSpec.Touches op o k) :
    ∃ v, getProperty H w o k true = .ok v ∧ getProperty H w' o k true = .ok v := by
  obtain ⟨sp, s, hp⟩ := objRun_protos mem dyn ops (sim_empty H) hl hrun
  simp only [List.map_nil, List.nil_append] at hp
  have hlen : sp.length = (ObjSpec.protos ops).length := by rw [← hp]; simp
  rcases objStep_spec mem dyn s op (by rw [hlen]; exact hop) with ⟨_, e⟩ | ⟨w1, out1, sp1, e, _, s1, st, _, _⟩
  · rw [e] at hstep; cases hstep
  · rw [e] at hstep; cases hstep
    have h : sp[o]? = some sp[o] := List.getElem?_eq_getElem (by omega)
    refine ⟨_, getProperty_shallow s h k, ?_⟩
    suffices hs : ∃ so', sp1[o]? = some so' ∧ so'.map k = sp[o].map k by
      obtain ⟨so', h1, h2⟩ := hs
      rw [getProperty_shallow s1 h1 k, h2]
    have hw : ∀ o' k' ov, ¬ (o' = o ∧ k' = k) → Spec.Wrote dyn sp o' k' ov out sp1 → ∃ so', sp1[o]? = some so' ∧ so'.map k = sp[o].map k := by
      rintro o' k' ov hn ⟨so, hso, ⟨_, _, _, _, _, rfl⟩ | ⟨_, _, rfl⟩ | ⟨_, rfl⟩⟩
      · exact ⟨_, h, rfl⟩
      · rw [bind_some hso]
        by_cases e : o' = o
        · subst e
          have hlt := (List.getElem?_eq_some_iff.mp hso).1
          refine ⟨_, by rw [List.getElem?_set_self hlt], ?_⟩
          simp only [upd]
          rw [if_neg (fun e => hn ⟨rfl, e.symm⟩)]
          rw [h] at hso; cases hso; rfl
        · exact ⟨_, by rw [List.getElem?_set_ne e]; exact h, rfl⟩
      · exact ⟨_, h, rfl⟩
    cases op with
    | new p q => obtain ⟨_, rfl⟩ := st; exact ⟨_, by rw [List.getElem?_append_left (by omega)]; exact h, rfl⟩
    | set o' k' v =>
      obtain ⟨so, _, h1, h2⟩ := st
      cases hpp : so.props with
      | false => rw [(h1 hpp).2]; exact ⟨_, h, rfl⟩
      | true => exact hw _ _ _ ht (h2 hpp)
    | del o' k' =>
      obtain ⟨so, _, h1, h2⟩ := st
      cases hpp : so.props with
      | false => rw [(h1 hpp).2]; exact ⟨_, h, rfl⟩
      | true => exact hw _ _ _ ht (h2 hpp)
    | get o' k' => obtain ⟨so, _, rfl, _⟩ := st; exact ⟨_, h, rfl⟩
    | getDeep o' k' => obtain ⟨so, _, rfl, _⟩ := st; exact ⟨_, h, rfl⟩

/-! ### Example: a chain of four objects, one of them without properties -/

def chainOps : List (ObjOp Nat Nat) :=
  [.new true none, .set 0 1 10, .set 0 2 20, .new true (some 0), .set 1 2 21, .new false (some 1), .new true (some 2), .set 3 3 33, .del 3 2]

def chainOuts : List (Out Nat) :=
  match objRun (fun _ _ => true) (fun _ => false) (fun _ => 0) ⟨[], [], 0⟩ (chainOps ++ [.getDeep 3 1, .getDeep 3 2, .getDeep 3 3, .getDeep 3 4, .get 3 2]) with
  | .ok (_, outs) => (outs.map (·.1)).drop 9
  | .error _ => []

example : ObjSpec.Legal 0 chainOps ∧ ObjSpec.protos chainOps = [none, some 0, some 1, some 2] ∧
    chainOuts = [.val 10, .val 21, .val 33, .missing, .missing] := by
  refine ⟨by simp [chainOps, ObjSpec.Legal, ObjSpec.LegalOp, ObjSpec.count], rfl, by decide +kernel⟩

end Verif.Props
