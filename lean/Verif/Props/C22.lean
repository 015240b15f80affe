import Verif.Obj.Collide
import Verif.Str.Ops

/-!
C22: objects behave as finite maps.
-/
namespace Verif.Props

open Verif.Obj

variable {K V : Type} [DecidableEq K]

/-- What a program does with objects and their properties.  Objects are numbered in the order of their creation. -/
inductive ObjOp (K V : Type) where
  /-- An object, or another value (`props = false`), with a prototype created before. -/
  | new (props : Bool) (proto : Option Nat)
  | set (o : Nat) (k : K) (v : V)
  | del (o : Nat) (k : K)
  | get (o : Nat) (k : K)
  | getDeep (o : Nat) (k : K)

/-- Outcome of a read. -/
def readOut : Option V → Out V
  | some v => .val v
  | none => .missing

/-- One operation of the modelled code. -/
def objStep (mem : Nat → Nat → Bool) (dyn : V → Bool) (H : K → Nat) (w : World K V) : ObjOp K V → Except Err (World K V × Out V)
  | .new p q => .ok ({ w with objs := w.objs ++ [⟨p, q, none⟩] }, .ok)
  | .set o k v => setProperty mem dyn H w o k (.val v)
  | .del o k => deleteProperty mem dyn H w o k
  | .get o k => (getProperty H w o k true).map fun r => (w, readOut r)
  | .getDeep o k => (getProperty H w o k false).map fun r => (w, readOut r)

/-- The final world, and for each operation its outcome and the number of allocation requests until then. -/
def objRun (mem : Nat → Nat → Bool) (dyn : V → Bool) (H : K → Nat) : World K V → List (ObjOp K V) → Except Err (World K V × List (Out V × Nat))
  | w, [] => .ok (w, [])
  | w, op :: ops =>
    match objStep mem dyn H w op with
    | .error e => .error e
    | .ok (w', out) =>
      match objRun mem dyn H w' ops with
      | .error e => .error e
      | .ok (w'', outs) => .ok (w'', (out, w'.reqs) :: outs)

namespace ObjSpec

/-- The operation names objects which exist. -/
def LegalOp (n : Nat) : ObjOp K V → Prop
  | .new _ q => ∀ p, q = some p → p < n
  | .set o _ _ => o < n
  | .del o _ => o < n
  | .get o _ => o < n
  | .getDeep o _ => o < n

/-- Number of objects after an operation. -/
def count (n : Nat) : ObjOp K V → Nat
  | .new _ _ => n + 1
  | _ => n

def Legal : Nat → List (ObjOp K V) → Prop
  | _, [] => True
  | n, op :: ops => LegalOp n op ∧ Legal (count n op) ops

/-- Meaning of one operation on finite maps. -/
def Step (dyn : V → Bool) (sp : List (SObj K V)) (op : ObjOp K V) (out : Out V) (sp' : List (SObj K V)) : Prop :=
  match op with
  | .new p q => out = .ok ∧ sp' = sp ++ [⟨p, q, fun _ => none⟩]
  | .set o k v => ∃ so, sp[o]? = some so ∧
      (so.props = false → out = .noProps ∧ sp' = sp) ∧ (so.props = true → Spec.Wrote dyn sp o k (some v) out sp')
  | .del o k => ∃ so, sp[o]? = some so ∧
      (so.props = false → out = .ok ∧ sp' = sp) ∧ (so.props = true → Spec.Wrote dyn sp o k none out sp')
  | .get o k => ∃ so, sp[o]? = some so ∧ sp' = sp ∧
      (∀ v, so.map k = some v → out = .val v) ∧ (so.map k = none → out = .missing)
  | .getDeep o k => ∃ r, Spec.Deep sp k o r ∧ sp' = sp ∧ (∀ v, r = some v → out = .val v) ∧ (r = none → out = .missing)

/-- The outcomes of a history are those of finite maps; an operation fails for lack of memory only if a request made by it has been
refused. -/
def History (mem : Nat → Nat → Bool) (dyn : V → Bool) : List (SObj K V) → Nat → List (ObjOp K V) → List (Out V × Nat) → Prop
  | _, _, [], [] => True
  | sp, r, op :: ops, (out, r') :: outs => ∃ sp', Step dyn sp op out sp' ∧ r ≤ r' ∧ (out = .oom → Refused mem r r') ∧
      History mem dyn sp' r' ops outs
  | _, _, _, _ => False

end ObjSpec

theorem objStep_spec {H : K → Nat} (mem : Nat → Nat → Bool) (dyn : V → Bool) {w : World K V} {sp : List (SObj K V)} (s : Sim H w sp)
    (op : ObjOp K V) (hl : ObjSpec.LegalOp sp.length op) :
    (Huge mem ∧ objStep mem dyn H w op = .error .ub) ∨
    ∃ w' out sp', objStep mem dyn H w op = .ok (w', out) ∧ w.reqs ≤ w'.reqs ∧ Sim H w' sp' ∧ ObjSpec.Step dyn sp op out sp' ∧
      (out = .oom → Refused mem w.reqs w'.reqs) ∧ sp'.length = ObjSpec.count sp.length op := by
  have hbind : ∀ o k ov, (Spec.bind sp o k ov).length = sp.length := by
    intro o k ov; unfold Spec.bind; split <;> simp
  have hwl : ∀ o k ov out sp', Spec.Wrote dyn sp o k ov out sp' → sp'.length = sp.length := by
    rintro o k ov out sp' ⟨so, _, ⟨_, _, _, _, _, rfl⟩ | ⟨_, _, rfl⟩ | ⟨_, rfl⟩⟩
    · rfl
    · exact hbind o k ov
    · rfl
  cases op with
  | new p q =>
    right
    refine ⟨_, _, sp ++ [⟨p, q, fun _ => none⟩], rfl, Nat.le_refl _, ?_, ⟨rfl, rfl⟩, by simp, by simp [ObjSpec.count]⟩
    refine ⟨by simp [s.len], ?_, ?_, fun t tb ht => ?_⟩
    case refine_3 =>
      rcases s.old t tb ht with ⟨i, ob, hi, hti⟩ | h
      · exact .inl ⟨i, ob, by
          show (w.objs ++ [_])[i]? = some ob
          rw [List.getElem?_append_left (List.getElem?_eq_some_iff.mp hi).1]; exact hi, hti⟩
      · exact .inr h
    · intro i ob hi
      simp only at hi
      by_cases h : i < w.objs.length
      · rw [List.getElem?_append_left h] at hi
        obtain ⟨so, h1, h2⟩ := s.obj i ob hi
        exact ⟨so, by rw [List.getElem?_append_left (by rw [← s.len]; exact h)]; exact h1, h2⟩
      · have hle : i < w.objs.length + 1 := by
          have := (List.getElem?_eq_some_iff.mp hi).1; simpa using this
        have : i = w.objs.length := by omega
        subst this
        simp only [List.getElem?_concat_length, Option.some.injEq] at hi
        subst hi
        refine ⟨⟨p, q, fun _ => none⟩, by rw [s.len]; simp, rfl, rfl, ?_, fun _ => rfl, by simp⟩
        intro x hx
        rw [s.len]; exact hl x hx
    · intro i j oi oj t hi hj hti htj
      simp only at hi hj
      have key : ∀ (i : Nat) (ob : Object), (w.objs ++ [⟨p, q, none⟩])[i]? = some ob → ob.table = some t → w.objs[i]? = some ob := by
        intro i ob hi ht
        by_cases h : i < w.objs.length
        · rw [List.getElem?_append_left h] at hi; exact hi
        · have hle : i < w.objs.length + 1 := by
            have := (List.getElem?_eq_some_iff.mp hi).1; simpa using this
          have : i = w.objs.length := by omega
          subst this
          simp only [List.getElem?_concat_length, Option.some.injEq] at hi
          subst hi; cases ht
      exact s.own i j oi oj t (key i oi hi hti) (key j oj hj htj) hti htj
  | set o k v =>
    obtain ⟨so, hs⟩ : ∃ so, sp[o]? = some so := ⟨_, List.getElem?_eq_getElem hl⟩
    cases hp : so.props with
    | false =>
      right
      have hlen : o < w.objs.length := by rw [s.len]; exact hl
      obtain ⟨ob, ho⟩ : ∃ ob, w.objs[o]? = some ob := ⟨_, List.getElem?_eq_getElem hlen⟩
      obtain ⟨so', h1, h2, _⟩ := s.obj o ob ho
      rw [hs] at h1; cases h1
      refine ⟨w, .noProps, sp, ?_, Nat.le_refl _, s, ⟨so, hs, fun _ => ⟨rfl, rfl⟩, by simp [hp]⟩, by simp, rfl⟩
      simp [objStep, setProperty, World.obj_ok ho, bind, Except.bind, ← h2, hp]
    | true =>
      rcases setProperty_spec mem dyn s hs hp k (some v) with h | ⟨w', out, sp', h1, h2, h3, h4, h5⟩
      · exact Or.inl h
      · exact Or.inr ⟨w', out, sp', h1, h2, h3, ⟨so, hs, by simp [hp], fun _ => h4⟩, h5, hwl _ _ _ _ _ h4⟩
  | del o k =>
    obtain ⟨so, hs⟩ : ∃ so, sp[o]? = some so := ⟨_, List.getElem?_eq_getElem hl⟩
    have hlen : o < w.objs.length := by rw [s.len]; exact hl
    obtain ⟨ob, ho⟩ : ∃ ob, w.objs[o]? = some ob := ⟨_, List.getElem?_eq_getElem hlen⟩
    obtain ⟨so', h1, h2, _⟩ := s.obj o ob ho
    rw [hs] at h1; cases h1
    cases hp : so.props with
    | false =>
      right
      refine ⟨w, .ok, sp, ?_, Nat.le_refl _, s, ⟨so, hs, fun _ => ⟨rfl, rfl⟩, by simp [hp]⟩, by simp, rfl⟩
      simp [objStep, deleteProperty, World.obj_ok ho, bind, Except.bind, ← h2, hp]
    | true =>
      have e : objStep mem dyn H w (.del o k) = setProperty mem dyn H w o k (Val.of none) :=
        deleteProperty_eq mem dyn ho (by rw [← h2]; exact hp) k
      rw [e]
      rcases setProperty_spec mem dyn s hs hp k none with h | ⟨w', out, sp', h1, h2, h3, h4, h5⟩
      · exact Or.inl h
      · exact Or.inr ⟨w', out, sp', h1, h2, h3, ⟨so, hs, by simp [hp], fun _ => h4⟩, h5, hwl _ _ _ _ _ h4⟩
  | get o k =>
    right
    obtain ⟨so, hs⟩ : ∃ so, sp[o]? = some so := ⟨_, List.getElem?_eq_getElem hl⟩
    refine ⟨w, readOut (so.map k), sp, ?_, Nat.le_refl _, s,
      ⟨so, hs, rfl, ?_, ?_⟩, ?_, rfl⟩
    · simp [objStep, getProperty_shallow s hs, Except.map]
    · intro v h; rw [h]; rfl
    · intro h; rw [h]; rfl
    · cases so.map k <;> simp [readOut]
  | getDeep o k =>
    right
    obtain ⟨r, hr, hd⟩ := getProperty_deep s hl k
    refine ⟨w, readOut r, sp, ?_, Nat.le_refl _, s, ⟨r, hd, rfl, ?_, ?_⟩, ?_, rfl⟩
    · simp [objStep, hr, Except.map]
    · intro v h; rw [h]; rfl
    · intro h; rw [h]; rfl
    · cases r <;> simp [readOut]

theorem objRun_spec {H : K → Nat} (mem : Nat → Nat → Bool) (dyn : V → Bool) :
    ∀ (ops : List (ObjOp K V)) {w : World K V} {sp : List (SObj K V)} (_ : Sim H w sp), ObjSpec.Legal sp.length ops →
    (Huge mem ∧ objRun mem dyn H w ops = .error .ub) ∨
    ∃ w' outs sp', objRun mem dyn H w ops = .ok (w', outs) ∧ Sim H w' sp' ∧ ObjSpec.History mem dyn sp w.reqs ops outs := by
  intro ops
  induction ops with
  | nil => intro w sp s _; exact Or.inr ⟨w, [], sp, rfl, s, trivial⟩
  | cons op ops ih =>
    intro w sp s hl
    rcases objStep_spec mem dyn s op hl.1 with ⟨h, e⟩ | ⟨w1, out, sp1, e, hq, s1, st, hf, hlen⟩
    · left; exact ⟨h, by simp [objRun, e]⟩
    · rcases ih s1 (by rw [hlen]; exact hl.2) with ⟨h, e2⟩ | ⟨w2, outs, sp2, e2, s2, hh⟩
      · left; exact ⟨h, by simp [objRun, e, e2]⟩
      · exact Or.inr ⟨w2, (out, w1.reqs) :: outs, sp2, by simp [objRun, e, e2], s2, sp1, st, hq, hf, hh⟩

omit [DecidableEq K] in
theorem sim_empty (H : K → Nat) : Sim H (⟨[], [], 0⟩ : World K V) [] := ⟨rfl, by simp, by simp, by simp⟩

/-- Any history of creating objects, writing, deleting and reading their properties has the outcomes of finite maps, for every hash function
and every pattern of failing allocations.  Nothing is read or written outside of a table.

Missing from the full claim: requests for tables of more than 2^27 slots must be refused (see `C22_collision_violated`), and an operation which
fails for lack of memory may have replaced the binding (see `C22_failed_write_violated`). -/
theorem C22_objects_partial (H : K → Nat) (dyn : V → Bool) (mem : Nat → Nat → Bool) (hm : ∀ n c, 2 ^ 28 ≤ c → mem n c = false)
    (ops : List (ObjOp K V)) (hl : ObjSpec.Legal 0 ops) :
    ∃ w outs, objRun mem dyn H ⟨[], [], 0⟩ ops = .ok (w, outs) ∧ ObjSpec.History mem dyn [] 0 ops outs := by
  rcases objRun_spec mem dyn ops (sim_empty H) hl with ⟨⟨n, c, h1, h2⟩, _⟩ | ⟨w, outs, sp, e, s, hh⟩
  · rw [hm n c h1] at h2; cases h2
  · exact ⟨w, outs, e, hh⟩

/-- The latest successful write to property `k` of object `o`, if it has not been deleted since. -/
def ObjSpec.latest (o : Nat) (k : K) : Option V → List (ObjOp K V) → List (Out V × Nat) → Option V
  | acc, .set o' k' v :: ops, (out, _) :: outs =>
    latest o k (match out with | .ok => if o' = o ∧ k' = k then some v else acc | _ => acc) ops outs
  | acc, .del o' k' :: ops, (_, _) :: outs => latest o k (if o' = o ∧ k' = k then none else acc) ops outs
  | acc, _ :: ops, _ :: outs => latest o k acc ops outs
  | acc, _, _ => acc

theorem latest_spec {mem : Nat → Nat → Bool} {dyn : V → Bool} (o : Nat) (k : K) :
    ∀ (ops : List (ObjOp K V)) (sp : List (SObj K V)) (r : Nat) (outs : List (Out V × Nat)) (acc : Option V) (out : Out V) (r' : Nat),
      ObjSpec.History mem dyn sp r (ops ++ [.get o k]) (outs ++ [(out, r')]) → ops.length = outs.length → (∀ x ∈ outs, x.1 ≠ .oom) →
      (∀ so ∈ sp, so.props = false → so.map = fun _ => none) →
      (∀ so, sp[o]? = some so → so.map k = acc) → (sp[o]? = none → acc = none) →
      out = readOut (ObjSpec.latest o k acc ops outs) := by
  intro ops
  induction ops with
  | nil =>
    intro sp r outs acc out r' hh hlen ho hnp hacc _
    cases outs with
    | cons _ _ => simp at hlen
    | nil =>
      simp only [List.nil_append, ObjSpec.History, ObjSpec.Step] at hh
      obtain ⟨sp', ⟨so, hs, _, h1, h2⟩, _⟩ := hh
      have := hacc so hs
      simp only [ObjSpec.latest]
      cases acc with
      | none => exact h2 this
      | some v => exact h1 v this
  | cons op ops ih =>
    intro sp r outs acc out r' hh hlen ho hnp hacc hnone
    cases outs with
    | nil => simp at hlen
    | cons x outs =>
      obtain ⟨xo, xr⟩ := x
      simp only [List.cons_append, ObjSpec.History] at hh
      obtain ⟨sp', st, _, _, hh⟩ := hh
      simp only [List.length_cons, Nat.add_right_cancel_iff] at hlen
      have hxo : xo ≠ .oom := ho _ (List.mem_cons_self ..)
      have ho' : ∀ x ∈ outs, x.1 ≠ .oom := fun x hx => ho x (List.mem_cons_of_mem _ hx)
      have same : sp' = sp → (∀ so ∈ sp', so.props = false → so.map = fun _ => none) ∧
          (∀ so, sp'[o]? = some so → so.map k = acc) ∧ (sp'[o]? = none → acc = none) := by
        rintro rfl; exact ⟨hnp, hacc, hnone⟩
      have wrote : ∀ o' k' ov so', sp[o']? = some so' → so'.props = true → sp' = Spec.bind sp o' k' ov →
          let acc' := if o' = o ∧ k' = k then ov else acc
          (∀ so ∈ sp', so.props = false → so.map = fun _ => none) ∧
          (∀ so, sp'[o]? = some so → so.map k = acc') ∧ (sp'[o]? = none → acc' = none) := by
        intro o' k' ov so' hs' hp' he acc'
        rw [bind_some hs'] at he
        have hlt := (List.getElem?_eq_some_iff.mp hs').1
        subst he
        refine ⟨?_, ?_, ?_⟩
        · intro so hso hp
          rcases List.mem_or_eq_of_mem_set hso with h | h
          · exact hnp so h hp
          · subst h; rw [hp'] at hp; cases hp
        · intro so hso
          by_cases e : o' = o
          · subst e
            rw [List.getElem?_set_self hlt] at hso
            cases hso
            simp only [upd, acc']
            by_cases e2 : k' = k
            · subst e2; simp
            · have e3 : ¬ k = k' := fun x => e2 x.symm
              simp only [e2, e3, if_false, and_false]
              exact hacc so' hs'
          · rw [List.getElem?_set_ne e] at hso
            simp only [acc', e, false_and, if_false]
            exact hacc so hso
        · intro hso
          rw [List.getElem?_eq_none_iff, List.length_set] at hso
          have : o' ≠ o := by intro e; omega
          simp only [acc', this, false_and, if_false]
          exact hnone (List.getElem?_eq_none_iff.mpr hso)
      cases op with
      | new p q =>
        obtain ⟨rfl, rfl⟩ := st
        simp only [ObjSpec.latest]
        refine ih _ _ _ _ _ _ hh hlen ho' ?_ ?_ ?_
        · intro so hso hp
          rcases List.mem_append.mp hso with h | h
          · exact hnp so h hp
          · rw [List.mem_singleton.mp h]
        · intro so hso
          by_cases h : o < sp.length
          · rw [List.getElem?_append_left h] at hso; exact hacc so hso
          · have := hnone (List.getElem?_eq_none_iff.mpr (by omega))
            subst this
            rw [List.getElem?_append_right (by omega)] at hso
            have : so = ⟨p, q, fun _ => none⟩ := by
              have h2 := (List.getElem?_eq_some_iff.mp hso).1
              have h3 : o - sp.length = 0 := by simpa using h2
              rw [h3] at hso; simpa using hso.symm
            rw [this]
        · intro h
          rw [List.getElem?_eq_none_iff, List.length_append] at h
          exact hnone (List.getElem?_eq_none_iff.mpr (by omega))
      | set o' k' v =>
        obtain ⟨so', hs', hf, ht⟩ := st
        cases hp : so'.props with
        | false =>
          obtain ⟨rfl, e⟩ := hf hp
          obtain ⟨a, b, c⟩ := same e
          simp only [ObjSpec.latest]
          exact ih _ _ _ _ _ _ hh hlen ho' a b c
        | true =>
          obtain ⟨so2, hs2, ⟨d, _, _, _, rfl, e⟩ | ⟨_, rfl | rfl, e⟩ | ⟨rfl, _⟩⟩ := ht hp
          · obtain ⟨a, b, c⟩ := same e
            simp only [ObjSpec.latest]
            exact ih _ _ _ _ _ _ hh hlen ho' a b c
          · obtain ⟨a, b, c⟩ := wrote o' k' (some v) so' hs' hp e
            simp only [ObjSpec.latest]
            exact ih _ _ _ _ _ _ hh hlen ho' a b c
          · exact absurd rfl hxo
          · exact absurd rfl hxo
      | del o' k' =>
        obtain ⟨so', hs', hf, ht⟩ := st
        simp only [ObjSpec.latest]
        cases hp : so'.props with
        | false =>
          obtain ⟨rfl, e⟩ := hf hp
          obtain ⟨a, b, c⟩ := same e
          have hm := hnp so' (List.mem_of_getElem? hs') hp
          refine ih _ _ _ _ _ _ hh hlen ho' a ?_ ?_
          · intro so hso
            split
            · rename_i e2
              obtain ⟨rfl, rfl⟩ := e2
              rw [e, hs'] at hso; cases hso
              rw [hm]
            · exact b so hso
          · intro h
            split
            · rfl
            · exact c h
        | true =>
          obtain ⟨so2, hs2, ⟨d, h, _⟩ | ⟨_, rfl | rfl, e⟩ | ⟨rfl, _⟩⟩ := ht hp
          · cases h
          · obtain ⟨a, b, c⟩ := wrote o' k' none so' hs' hp e
            exact ih _ _ _ _ _ _ hh hlen ho' a b c
          · exact absurd rfl hxo
          · exact absurd rfl hxo
      | get o' k' =>
        obtain ⟨so', hs', e, _⟩ := st
        obtain ⟨a, b, c⟩ := same e
        simp only [ObjSpec.latest]
        exact ih _ _ _ _ _ _ hh hlen ho' a b c
      | getDeep o' k' =>
        obtain ⟨so', hs', e, _⟩ := st
        obtain ⟨a, b, c⟩ := same e
        simp only [ObjSpec.latest]
        exact ih _ _ _ _ _ _ hh hlen ho' a b c

/-- Without failures for lack of memory: a read returns the value most recently written and not deleted since, and fails for all other
names. -/
theorem C22_last_write (H : K → Nat) (dyn : V → Bool) (mem : Nat → Nat → Bool) (hm : ∀ n c, 2 ^ 28 ≤ c → mem n c = false)
    (ops : List (ObjOp K V)) (o : Nat) (k : K) (hl : ObjSpec.Legal 0 (ops ++ [.get o k])) (w : World K V) (outs : List (Out V × Nat))
    (out : Out V) (r : Nat) (hrun : objRun mem dyn H ⟨[], [], 0⟩ (ops ++ [.get o k]) = .ok (w, outs ++ [(out, r)]))
    (hlen : ops.length = outs.length) (hok : ∀ x ∈ outs, x.1 ≠ .oom) :
    out = readOut (ObjSpec.latest o k none ops outs) := by
  obtain ⟨w', outs', e, hh⟩ := C22_objects_partial H dyn mem hm _ hl
  rw [hrun] at e
  cases e
  exact latest_spec o k ops [] 0 outs none out r hh hlen hok (by simp) (by simp) (by simp)

/-! ### Violations -/

/-- The full claim, first part: if memory is never refused, no history of operations on small objects fails. -/
def C22_total_full : Prop := ∀ (ops : List (ObjOp (List Nat) Nat)), ObjSpec.Legal 0 ops →
  ∃ w outs, objRun (fun _ _ => true) (fun _ => false) Str.hashOf ⟨[], [], 0⟩ ops = .ok (w, outs)

/-- Eleven names with the same hash: 0c0r0Q0Q, 0c0r0Q10, 0c0r100Q, 0c0r1010, 0c200Q0Q, 0c200Q10, 0c20100Q, 0c201010, 1B0r0Q0Q, 1B0r0Q10, 1B0r100Q. -/
def collidingNames : List (List Nat) :=
  [[48, 99, 48, 114, 48, 81, 48, 81], [48, 99, 48, 114, 48, 81, 49, 48], [48, 99, 48, 114, 49, 48, 48, 81], [48, 99, 48, 114, 49, 48, 49, 48],
   [48, 99, 50, 48, 48, 81, 48, 81], [48, 99, 50, 48, 48, 81, 49, 48], [48, 99, 50, 48, 49, 48, 48, 81], [48, 99, 50, 48, 49, 48, 49, 48],
   [49, 66, 48, 114, 48, 81, 48, 81], [49, 66, 48, 114, 48, 81, 49, 48], [49, 66, 48, 114, 49, 48, 48, 81]]

def collidingOps (n : Nat) : List (ObjOp (List Nat) Nat) := .new true none :: (collidingNames.take n).map fun k => .set 0 k 7

theorem objRun_append {H : K → Nat} (mem : Nat → Nat → Bool) (dyn : V → Bool) (a b : List (ObjOp K V)) :
    ∀ (w w1 : World K V) (o1 : List (Out V × Nat)), objRun mem dyn H w a = .ok (w1, o1) →
      (∀ e, objRun mem dyn H w1 b = .error e → objRun mem dyn H w (a ++ b) = .error e) := by
  induction a with
  | nil => intro w w1 o1 h; cases h; exact fun e h => h
  | cons op a ih =>
    intro w w1 o1 h e he
    simp only [objRun, List.cons_append] at h ⊢
    cases h1 : objStep mem dyn H w op with
    | error x => rw [h1] at h; cases h
    | ok p =>
      obtain ⟨w2, out⟩ := p
      rw [h1] at h
      simp only at h ⊢
      cases h2 : objRun mem dyn H w2 a with
      | error x => rw [h2] at h; cases h
      | ok q =>
        obtain ⟨w3, outs⟩ := q
        rw [h2] at h
        simp only [Except.ok.injEq, Prod.mk.injEq] at h
        obtain ⟨rfl, _⟩ := h
        rw [ih w2 w3 outs h2 e he]

def isFound : Except Err (Option V) → Bool
  | .ok (some _) => true
  | _ => false

/-- One more name with the hash of ten present ones. -/
theorem objRun_collide {H : K → Nat} {dyn : V → Bool} {w : World K V} {sp : List (SObj K V)} {o ti : Nat} {ob : Object} {t : Table K V}
    (s : Sim H w sp) (ho : w.objs[o]? = some ob) (hp : ob.props = true) (htab : ob.table = some ti) (ht : w.tables[ti]? = some t)
    (htc : t.cap = 2 ^ 4) (k : K) (v : V) (ks : List K) (hd : ks.Nodup) (hlen : 10 ≤ ks.length) (hh : ∀ x ∈ ks, H x = H k)
    (hget : ∀ x ∈ ks, isFound (getProperty H w o x true) = true)
    (hab : ∀ i < t.cap, (t.items i).key ≠ some k) :
    objRun (fun _ _ => true) dyn H w [.set o k v] = .error .ub := by
  obtain ⟨so, h1, h2, h3, h4, h5, h6⟩ := s.obj o _ ho
  have hget' : ∀ x ∈ ks, so.map x ≠ none := by
    intro x hx hn
    have e := hget x hx
    rw [getProperty_shallow s h1 x, hn] at e
    cases e
  have := setLoop_collide dyn o k v ks hd hlen hh 40 s ho htab ht htc (by omega) h1 hget' hab
  simp only [objRun, objStep, setProperty, World.obj_ok ho, bind, Except.bind, hp, htab, if_true, this]

/-- The table after ten writes, by evaluation. -/
def collidingCheck : Bool :=
  match objRun (fun _ _ => true) (fun _ => false) Str.hashOf ⟨[], [], 0⟩ (collidingOps 10) with
  | .ok (w, _) => decide (w.objs = [⟨true, none, some 2⟩]) && (
      decide ((w.tables[2]?.map (·.cap)) = some 16) && (
      decide ((w.tables[2]?.map fun t => (List.range 16).all fun i => (t.items i).key != some [49, 66, 48, 114, 49, 48, 48, 81]) = some true) &&
      (collidingNames.take 10).all fun x => isFound (getProperty Str.hashOf w 0 x true)))
  | .error _ => false

theorem collidingCheck_true : collidingCheck = true := by decide +kernel

/-- The code violates it: writing eleven properties whose names have the same hash doubles the table until its size in bytes does not fit in
32 bits; the table is then written behind the end of its memory.  (The loop at core/kos_object.c:684-691 gives up after ten probes whatever the
size of the table, and `kos_alloc_object` takes a 32-bit size.)  If memory runs out before, the write fails. -/
theorem C22_collision_violated : ¬ C22_total_full ∧
    objRun (fun _ _ => true) (fun _ => false) Str.hashOf ⟨[], [], 0⟩ (collidingOps 11) = .error .ub := by
  have key : objRun (fun _ _ => true) (fun _ => false) Str.hashOf ⟨[], [], 0⟩ (collidingOps 11) = .error .ub := by
    have hl : ObjSpec.Legal 0 (collidingOps 10) := by simp [collidingOps, collidingNames, ObjSpec.Legal, ObjSpec.LegalOp, ObjSpec.count]
    have hc := collidingCheck_true
    unfold collidingCheck at hc
    have happ : collidingOps 11 = collidingOps 10 ++ [.set 0 [49, 66, 48, 114, 49, 48, 48, 81] 7] := rfl
    rw [happ]
    have hsp := objRun_spec (fun _ _ => true) (fun _ => false) (collidingOps 10) (sim_empty Str.hashOf) hl
    generalize hrun : objRun (fun _ _ => true) (fun _ => false) Str.hashOf ⟨[], [], 0⟩ (collidingOps 10) = r at hc hsp
    rcases hsp with ⟨_, e⟩ | ⟨w, outs, sp, e, s, hh⟩
    · rw [e] at hc; cases hc
    · rw [e] at hc hrun
      simp only [Bool.and_eq_true, decide_eq_true_eq, List.all_eq_true] at hc
      obtain ⟨h0, hcap, hab, hg⟩ := hc
      apply objRun_append _ _ _ _ _ _ _ hrun
      have ho : w.objs[0]? = some ⟨true, none, some 2⟩ := by rw [h0]; rfl
      cases ht : w.tables[2]? with
      | none => rw [ht] at hcap; cases hcap
      | some t =>
        rw [ht] at hcap hab
        have htc : t.cap = 2 ^ 4 := by simpa using hcap
        simp only [Option.map_some, Option.some.injEq, List.all_eq_true, List.mem_range] at hab
        exact objRun_collide s ho rfl rfl ht htc _ _ (collidingNames.take 10) (by decide +kernel) (by decide +kernel) (by decide +kernel) hg
          (fun i hi => by simpa using hab i (by omega))
  refine ⟨?_, key⟩
  intro h
  obtain ⟨w, outs, e⟩ := h (collidingOps 11) (by simp [collidingOps, collidingNames, ObjSpec.Legal, ObjSpec.LegalOp, ObjSpec.count])
  rw [key] at e; cases e

/-- The full claim, second part: a write which fails has no effect. -/
def C22_failed_write_full : Prop := ∀ (mem : Nat → Nat → Bool) (w w' : World Nat Nat) (ops : List (ObjOp Nat Nat)) (outs : List (Out Nat × Nat))
    (o k v : Nat), ObjSpec.Legal 0 ops → objRun mem (fun _ => false) (fun k => k) ⟨[], [], 0⟩ ops = .ok (w, outs) →
  setProperty mem (fun _ => false) (fun k => k) w o k (.val v) = .ok (w', .oom) →
  ∀ k', getProperty (fun k => k) w' o k' true = getProperty (fun k => k) w o k' true

/-- The code violates it: the third property of an object is written, then the table is enlarged; if there is no memory for that, the write
raises an exception, but the property is there (core/kos_object.c:797-799). -/
theorem C22_failed_write_violated : ¬ C22_failed_write_full := by
  intro h
  let mem : Nat → Nat → Bool := fun n _ => n == 0
  have run : (match objRun mem (fun _ => false) (fun k => k) ⟨[], [], 0⟩ [.new true none, .set 0 1 10, .set 0 2 20] with
      | .ok (w, _) =>
        match setProperty mem (fun _ => false) (fun k => k) w 0 3 (.val 30) with
        | .ok (w', .oom) =>
          match getProperty (fun k => k) w' 0 3 true, getProperty (fun k => k) w 0 3 true with
          | .ok (some 30), .ok none => true
          | _, _ => false
        | _ => false
      | _ => false) = true := by decide +kernel
  cases e1 : objRun mem (fun _ => false) (fun k => k) ⟨[], [], 0⟩ [.new true none, .set 0 1 10, .set 0 2 20] with
  | error e => rw [e1] at run; cases run
  | ok p =>
  obtain ⟨w, outs⟩ := p
  rw [e1] at run
  simp only at run
  split at run
  · rename_i w' e2
    split at run
    · rename_i e3 e4
      have := h mem w w' _ outs 0 3 30 (by simp [ObjSpec.Legal, ObjSpec.LegalOp, ObjSpec.count]) e1 e2 3
      rw [e3, e4] at this
      cases this
    · cases run
  · cases run

/-! ### Example

A prototype, an object with eight properties whose hashes collide pairwise, deletions, and reads through both. -/

def objExOps : List (ObjOp Nat Nat) :=
  [.new true none, .new true (some 0), .set 0 5 50, .set 1 1 10, .set 1 2 20, .set 1 3 30, .set 1 4 40, .set 1 101 11, .set 1 102 12, .set 1 5 55,
   .get 1 5, .del 1 5, .get 1 5, .getDeep 1 5, .set 1 1 111, .get 1 1, .get 1 101, .del 1 77, .get 0 5, .get 0 1]

def objExOuts : List (Out Nat) × List Nat :=
  match objRun (fun _ c => c ≤ 64) (fun _ => false) (fun k => k % 100) ⟨[], [], 0⟩ objExOps with
  | .ok (w, outs) => (outs.map (·.1), w.tables.map (·.cap))
  | .error _ => ([], [])

example : ObjSpec.Legal 0 objExOps := by simp [objExOps, ObjSpec.Legal, ObjSpec.LegalOp, ObjSpec.count]

example : objExOuts = ([.ok, .ok, .ok, .ok, .ok, .ok, .ok, .ok, .ok, .ok, .val 55, .ok, .missing, .val 50, .ok, .val 111, .val 11, .ok, .val 50,
    .missing], [4, 4, 8, 16]) := by decide +kernel

end Verif.Props
