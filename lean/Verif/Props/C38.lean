import Verif.Base.SortLemmas
import Verif.Props.C46

/-!
C38: array.sort sorts, permutes and is stable.

The order of keys is any total preorder `cmp`; C46 says for which values `KOS_compare` is one.
-/
namespace Verif.Props

open Verif.Utils (Cmp)
open Verif.Base

variable {V : Type}

/-- A total preorder. -/
structure Preorder3 (cmp : V → V → Cmp) : Prop where
  determinate : ∀ x y, cmp x y ≠ .indeterminate
  flip : ∀ x y, cmp y x = (cmp x y).flip
  trans : ∀ x y z, cmp x y ≠ .greater → cmp y z ≠ .greater → cmp x z ≠ .greater

/-- The array has the elements `vals`. -/
def Holds (src : Src V) (vals : List V) : Prop := src.size = vals.length ∧ ∃ rest, src.block = vals.map .val ++ rest

/-- A key function which does not touch the array. -/
def pureKey (k : V → V) : KeyFun V := fun src v => some (k v, src)

/-- The key of a value. -/
def keyOf (k : Option (V → V)) (v : V) : V := (k.map fun f => f v).getD v

/-- Elements in order of keys. -/
def InOrder (cmp : V → V → Cmp) (k : Option (V → V)) (rev : Bool) (r : List V) : Prop :=
  r.Pairwise fun x y => cmp (keyOf k x) (keyOf k y) ≠ if rev then .less else .greater

/-- Elements with equal keys keep their order. -/
def Stable (cmp : V → V → Cmp) (k : Option (V → V)) (vals r : List V) : Prop :=
  ∀ x, r.filter (fun v => cmp (keyOf k v) x = .equal) = vals.filter (fun v => cmp (keyOf k v) x = .equal)

/-- The full claim: for any stack size, any key function and both orders. -/
def C38_full : Prop :=
  ∀ (V : Type) (cmp : V → V → Cmp), Preorder3 cmp → ∀ (k : Option (V → V)) (rev : Bool) (src : Src V) (vals : List V), Holds src vals →
    ∀ depth, src.size ≤ depth →
      ∃ r, sortArray cmp true depth (k.map pureKey) rev src = .ok r ∧ r.Perm vals ∧ InOrder cmp k rev r ∧ Stable cmp k vals r

/-! ### Proof -/

/-- The record of a value. -/
def recOf (k : Option (V → V)) (v : V) (i : Nat) : Rec V := ⟨keyOf k v, i, k.map fun _ => v⟩

def recsOf (k : Option (V → V)) : List V → Nat → List (Rec V)
  | [], _ => []
  | v :: vs, i => recOf k v i :: recsOf k vs (i + 1)

theorem expand_spec (k : Option (V → V)) (src : Src V) (pre vals : List V) (rest : List (Arr.Cell V))
    (h : src.block = (pre ++ vals).map .val ++ rest) :
    expandLoop (k.map pureKey) vals.length pre.length src = .ok (recsOf k vals pre.length, src) := by
  induction vals generalizing pre with
  | nil => rfl
  | cons v vals ih =>
    have hv : src.block[pre.length]? = some (.val v) := by
      rw [h, List.getElem?_append_left (by simp), List.getElem?_map, List.getElem?_append_right (Nat.le_refl _)]
      simp
    have e := ih (pre ++ [v]) (by rw [h]; simp)
    rw [List.length_append, List.length_singleton] at e
    rw [List.length_cons, expandLoop, hv]
    cases k with
    | none => simp only [Option.map_none] at e ⊢; rw [e]; rfl
    | some f => simp only [Option.map_some, pureKey] at e ⊢; rw [e]; rfl

theorem recsOf_mem (k : Option (V → V)) (vals : List V) (i : Nat) : ∀ r ∈ recsOf k vals i, ∃ v j, r = recOf k v j ∧ i ≤ j := by
  induction vals generalizing i with
  | nil => simp [recsOf]
  | cons v vals ih =>
    intro r hr
    rw [recsOf, List.mem_cons] at hr
    rcases hr with rfl | hr
    · exact ⟨v, i, rfl, Nat.le_refl _⟩
    · obtain ⟨v, j, e, h⟩ := ih (i + 1) r hr
      exact ⟨v, j, e, by omega⟩

theorem recsOf_idx (k : Option (V → V)) (vals : List V) (i : Nat) : (recsOf k vals i).Pairwise fun x y => x.idx < y.idx := by
  induction vals generalizing i with
  | nil => exact .nil
  | cons v vals ih =>
    rw [recsOf, List.pairwise_cons]
    refine ⟨?_, ih (i + 1)⟩
    intro r hr
    obtain ⟨w, j, rfl, h⟩ := recsOf_mem k vals (i + 1) r hr
    show i < j
    omega

theorem recsOf_length (k : Option (V → V)) (vals : List V) (i : Nat) : (recsOf k vals i).length = vals.length := by
  induction vals generalizing i with
  | nil => rfl
  | cons v vals ih => rw [recsOf, List.length_cons, List.length_cons, ih]

/-- The value of a record. -/
def out (r : Rec V) : V := r.val.getD r.key

theorem out_recOf (k : Option (V → V)) (v : V) (i : Nat) : out (recOf k v i) = v := by
  cases k <;> rfl

theorem key_recOf (k : Option (V → V)) (v : V) (i : Nat) : (recOf k v i).key = keyOf k (out (recOf k v i)) := by
  rw [out_recOf]; rfl

theorem recsOf_out (k : Option (V → V)) (vals : List V) (i : Nat) : (recsOf k vals i).map out = vals := by
  induction vals generalizing i with
  | nil => rfl
  | cons v vals ih => rw [recsOf, List.map_cons, out_recOf, ih]

theorem recsOf_uniform (k : Option (V → V)) (vals : List V) (i : Nat) : Uniform k.isSome (recsOf k vals i) := by
  intro r hr
  obtain ⟨v, j, rfl, _⟩ := recsOf_mem k vals i r hr
  cases k <;> rfl

theorem pairwise_idx_inj {l : List (Rec V)} (h : l.Pairwise fun x y => x.idx < y.idx) (x y : Rec V) (hx : x ∈ l) (hy : y ∈ l)
    (e : x.idx = y.idx) : x = y := by
  induction l with
  | nil => simp at hx
  | cons z l ih =>
    rw [List.pairwise_cons] at h
    rcases List.mem_cons.mp hx with hx' | hx' <;> rcases List.mem_cons.mp hy with hy' | hy'
    · rw [hx', hy']
    · have := h.1 y hy'; rw [← hx'] at this; omega
    · have := h.1 x hx'; rw [← hy'] at this; omega
    · exact ih h.2 hx' hy'

theorem isLess_iff (cmp : V → V → Cmp) (hc : Preorder3 cmp) (rev : Bool) (x y : Rec V) :
    Less cmp rev x y ↔ (cmp x.key y.key = if rev then .greater else .less) ∨
      (cmp x.key y.key = .equal ∧ if rev then y.idx < x.idx else x.idx < y.idx) := by
  unfold Less isLess
  have := hc.determinate x.key y.key
  cases rev <;> simp only [if_true, Bool.false_eq_true, if_false] <;> cases h : cmp x.key y.key <;> simp_all

theorem strictTotal_of (cmp : V → V → Cmp) (hc : Preorder3 cmp) (rev : Bool) (l : List (Rec V)) (hi : l.Pairwise fun x y => x.idx < y.idx) :
    StrictTotal cmp rev l := by
  refine ⟨?_, ?_, ?_⟩
  · intro x y z _ _ _ h1 h2
    rw [isLess_iff cmp hc] at h1 h2 ⊢
    have t1 := hc.trans x.key y.key z.key
    have t2 := hc.trans z.key y.key x.key
    have t3 := hc.trans y.key z.key x.key
    have t4 := hc.trans y.key x.key z.key
    have t5 := hc.trans z.key x.key y.key
    have t6 := hc.trans x.key z.key y.key
    rw [hc.flip x.key y.key, hc.flip x.key z.key, hc.flip y.key z.key] at *
    have d1 := hc.determinate x.key y.key
    have d2 := hc.determinate y.key z.key
    have d3 := hc.determinate x.key z.key
    cases rev <;> simp only [if_true, Bool.false_eq_true, if_false] at h1 h2 ⊢ <;>
      cases e1 : cmp x.key y.key <;> cases e2 : cmp y.key z.key <;> cases e3 : cmp x.key z.key <;>
      simp [e1, e2, e3, Cmp.flip] at * <;> omega
  · intro x y hx hy hne h
    rw [isLess_iff cmp hc] at h ⊢
    have hid : x.idx ≠ y.idx := fun e => hne (pairwise_idx_inj hi x y hx hy e)
    rw [hc.flip x.key y.key]
    have d1 := hc.determinate x.key y.key
    cases rev <;> simp only [if_true, Bool.false_eq_true, if_false] at h ⊢ <;> cases e1 : cmp x.key y.key <;> simp [e1, Cmp.flip] at * <;> omega
  · exact hi.imp (fun {x y} h e => by subst e; omega)

/-- Sorting ends, stays inside of the array and returns a permutation, for any comparison at all (also with values which are not
comparable), any key function which does not touch the array, and any stack with room for as many calls as there are elements. -/
theorem C38_permutation (cmp : V → V → Cmp) (k : Option (V → V)) (rev : Bool) (src : Src V) (vals : List V) (h : Holds src vals) (depth : Nat)
    (hd : src.size ≤ depth) : ∃ r, sortArray cmp true depth (k.map pureKey) rev src = .ok r ∧ r.Perm vals := by
  obtain ⟨h1, rest, h2⟩ := h
  unfold sortArray
  by_cases hs : src.size > 1
  · rw [if_pos hs, if_pos rfl]
    simp only [h1]
    have e := expand_spec k src [] vals rest (by simpa using h2)
    rw [List.length_nil] at e
    rw [e]
    simp only
    obtain ⟨S', e1, e2, _⟩ := sortRange_spec cmp rev k.isSome depth [] (recsOf k vals 0) [] (by rw [recsOf_length]; omega)
      (by rw [recsOf_length]; omega) (recsOf_uniform k vals 0)
    simp only [List.nil_append, List.append_nil, List.length_nil, Nat.zero_add, recsOf_length] at e1
    rw [e1]
    simp only []
    rw [if_pos h1]
    refine ⟨_, rfl, ?_⟩
    have := e2.map out
    rw [recsOf_out] at this
    exact this
  · rw [if_neg hs]
    refine ⟨_, rfl, ?_⟩
    rw [h2, h1, List.take_append_of_le_length (by simp), List.take_of_length_le (by simp)]
    clear h2 h1
    induction vals with
    | nil => exact .refl _
    | cons v vals ih => exact List.Perm.cons v ih

theorem holds_small (src : Src V) (vals : List V) (h : Holds src vals) :
    (src.block.take src.size).filterMap cellVal = vals := by
  obtain ⟨h1, rest, h2⟩ := h
  rw [h2, h1, List.take_append_of_le_length (by simp), List.take_of_length_le (by simp)]
  clear h2 h1
  induction vals with
  | nil => rfl
  | cons v vals ih => rw [List.map_cons, List.filterMap_cons]; simp [cellVal, ih]

theorem filter_out (k : Option (V → V)) (cmp : V → V → Cmp) (x : V) (l : List (Rec V)) (h : ∀ r ∈ l, r.key = keyOf k (out r)) :
    (l.map out).filter (fun v => cmp (keyOf k v) x = .equal) = (l.filter fun r => cmp r.key x = .equal).map out := by
  rw [List.filter_map]
  congr 1
  apply List.filter_congr
  intro r hr
  simp only [Function.comp]
  rw [h r hr]

/-- The records after sorting. -/
theorem sort_records (cmp : V → V → Cmp) (hc : Preorder3 cmp) (k : Option (V → V)) (rev : Bool) (src : Src V) (vals : List V)
    (h : Holds src vals) (hs : src.size > 1) (depth : Nat) (hd : src.size ≤ depth) :
    ∃ S' : List (Rec V), sortArray cmp true depth (k.map pureKey) rev src = .ok (S'.map out) ∧ S'.Perm (recsOf k vals 0) ∧ S'.Pairwise (Less cmp rev) := by
  obtain ⟨h1, rest, h2⟩ := h
  unfold sortArray
  rw [if_pos hs, if_pos rfl]
  simp only [h1]
  have e := expand_spec k src [] vals rest (by simpa using h2)
  rw [List.length_nil] at e
  rw [e]
  simp only
  obtain ⟨S', e1, e2, e3⟩ := sortRange_spec cmp rev k.isSome depth [] (recsOf k vals 0) [] (by rw [recsOf_length]; omega)
    (by rw [recsOf_length]; omega) (recsOf_uniform k vals 0)
  simp only [List.nil_append, List.append_nil, List.length_nil, Nat.zero_add, recsOf_length] at e1
  rw [e1]
  exact ⟨S', by simp only []; rw [if_pos h1]; rfl, e2, e3 (strictTotal_of cmp hc rev _ (recsOf_idx k vals 0))⟩

theorem flip_equal {c : Cmp} (h : c.flip = .equal) : c = .equal := by cases c <;> simp [Cmp.flip] at h ⊢

/-- Two keys equal to a third one are equal. -/
theorem Preorder3.equal_trans {cmp : V → V → Cmp} (hc : Preorder3 cmp) {x y z : V} (h1 : cmp x z = .equal) (h2 : cmp y z = .equal) :
    cmp x y = .equal := by
  have f1 := hc.flip y z
  have f2 := hc.flip x z
  rw [h2] at f1
  rw [h1] at f2
  simp only [Cmp.flip] at f1 f2
  have t1 := hc.trans x z y (by simp [h1]) (by simp [f1])
  have t2 := hc.trans y z x (by simp [h2]) (by simp [f2])
  have f3 := hc.flip x y
  have := hc.determinate x y
  cases e : cmp x y <;> simp [e, Cmp.flip] at * <;> simp [f3] at t2

/-- Sorting sorts and permutes in both orders; it is stable in ascending order, and reverses the order of elements with equal keys in
descending order. -/
theorem C38_partial (cmp : V → V → Cmp) (hc : Preorder3 cmp) (k : Option (V → V)) (rev : Bool) (src : Src V) (vals : List V)
    (h : Holds src vals) (depth : Nat) (hd : src.size ≤ depth) :
    ∃ r, sortArray cmp true depth (k.map pureKey) rev src = .ok r ∧ r.Perm vals ∧ InOrder cmp k rev r ∧
      Stable cmp k (if rev then vals.reverse else vals) r := by
  by_cases hs : src.size > 1
  · obtain ⟨S', e1, e2, e3⟩ := sort_records cmp hc k rev src vals h hs depth hd
    have hk : ∀ r ∈ S', r.key = keyOf k (out r) := by
      intro r hr
      obtain ⟨v, j, rfl, _⟩ := recsOf_mem k vals 0 r (e2.mem_iff.mp hr)
      exact key_recOf k v j
    have hk' : ∀ r ∈ recsOf k vals 0, r.key = keyOf k (out r) := fun r hr => hk r (e2.mem_iff.mpr hr)
    refine ⟨_, e1, ?_, ?_, ?_⟩
    · have := e2.map out
      rwa [recsOf_out] at this
    · unfold InOrder
      rw [List.pairwise_map]
      refine List.Pairwise.imp_of_mem ?_ e3
      intro x y hx hy hl
      rw [← hk x hx, ← hk y hy]
      rcases (isLess_iff cmp hc rev x y).mp hl with e | ⟨e, _⟩
      · rw [e]; cases rev <;> simp
      · rw [e]; cases rev <;> simp
    · intro x
      rw [filter_out k cmp x S' hk]
      -- the class of `x`, ordered by index
      have hF : (S'.filter fun r => cmp r.key x = .equal).Pairwise fun a b => if rev then b.idx < a.idx else a.idx < b.idx := by
        refine List.Pairwise.imp_of_mem ?_ (e3.filter _)
        intro a b ha hb hl
        have ha' := (List.mem_filter.mp ha).2
        have hb' := (List.mem_filter.mp hb).2
        simp only [decide_eq_true_eq] at ha' hb'
        have hab : cmp a.key b.key = .equal := hc.equal_trans ha' hb'
        rcases (isLess_iff cmp hc rev a b).mp hl with e | ⟨_, e⟩
        · rw [hab] at e; cases rev <;> simp at e
        · exact e
      have hp : (S'.filter fun r => cmp r.key x = .equal).Perm ((recsOf k vals 0).filter fun r => cmp r.key x = .equal) := e2.filter _
      have hR := (recsOf_idx k vals 0).filter (fun r => decide (cmp r.key x = .equal))
      cases rev with
      | false =>
        simp only [Bool.false_eq_true, if_false] at hF ⊢
        have := List.Perm.eq_of_pairwise (l₁ := S'.filter fun r => cmp r.key x = .equal)
          (l₂ := (recsOf k vals 0).filter fun r => cmp r.key x = .equal) (fun a b _ _ h1 h2 => by omega) hF hR hp
        rw [this, ← filter_out k cmp x _ hk', recsOf_out]
      | true =>
        simp only [if_true] at hF ⊢
        have hR' := List.pairwise_reverse.mpr hR
        have := List.Perm.eq_of_pairwise (l₁ := S'.filter fun r => cmp r.key x = .equal)
          (l₂ := ((recsOf k vals 0).filter fun r => cmp r.key x = .equal).reverse) (fun a b _ _ h1 h2 => by omega) hF hR'
          (hp.trans (List.reverse_perm _).symm)
        rw [this, List.map_reverse, ← filter_out k cmp x _ hk', recsOf_out, List.filter_reverse]
  · refine ⟨_, by unfold sortArray; rw [if_neg hs], ?_⟩
    rw [holds_small src vals h]
    have hl : vals.length ≤ 1 := by have := h.1; omega
    match vals, hl with
    | [], _ => exact ⟨.refl _, .nil, fun x => by cases rev <;> rfl⟩
    | [v], _ => exact ⟨.refl _, List.pairwise_singleton _ _, fun x => by cases rev <;> rfl⟩
    | _ :: _ :: _, h => simp at h

/-! ### Violations -/

theorem compareInt_preorder : Preorder3 Utils.compareInt := by
  refine ⟨?_, fun x y => Utils.compareInt_flip x y, ?_⟩
  · intro x y; unfold Utils.compareInt; split <;> (try split) <;> simp
  · intro x y z; unfold Utils.compareInt
    intro h1 h2
    split at h1 <;> split at h2 <;> (try split at h1) <;> (try split at h2) <;> split <;> (try split) <;> simp at * <;> omega

/-- Numbers compared by their tens: 10 and 11 have equal keys. -/
theorem C38_reverse_violated :
    sortArray Utils.compareInt true 3 (some (pureKey (· / 10))) true ⟨[.val 10, .val 20, .val 11], 3⟩ = .ok [20, 11, 10] := by
  decide +kernel

theorem C38_violated : ¬ C38_full := by
  intro h
  obtain ⟨r, e1, _, _, e2⟩ := h Int Utils.compareInt compareInt_preorder (some (· / 10)) true ⟨[.val 10, .val 20, .val 11], 3⟩ [10, 20, 11]
    ⟨rfl, [], rfl⟩ 3 (by decide)
  have := C38_reverse_violated
  rw [Option.map_some, this] at e1
  injection e1 with e1
  subst e1
  have := e2 1
  revert this
  decide +kernel

/-- A key function which makes the array grow, by `Arr.copyLoop` of the block to a larger one (for example `array.push`). -/
def growKey : KeyFun Int := fun src v =>
  match Arr.copyLoop (src.block.length + 1) src.block (List.replicate (2 * src.block.length) .tomb) src.block.length 0 with
  | some (old, _) => some (v, ⟨old, src.size + 1⟩)
  | none => none

/-- Then the internal marker CLOSED is read from the old block and used as a value. -/
theorem C38_growing_key_violated :
    sortArray Utils.compareInt true 100 (some growKey) false ⟨[.val 3, .val 1, .val 2, .val 4, .val 5], 5⟩ = .bad := by
  decide +kernel

/-- A key function which makes the array smaller (`array.resize`): results are written outside of the array's elements. -/
theorem C38_shrinking_key_violated :
    sortArray Utils.compareInt true 100 (some fun src v => some (v, { src with size := 1 })) false ⟨[.val 3, .val 1, .val 2], 3⟩ = .bad := by
  decide +kernel

/-- The partition of records which are all less than the pivot leaves them as they are. -/
theorem partLoop_all (cmp : V → V → Cmp) (rev three : Bool) (pivot : Rec V) (A B : List (Rec V)) (fin : Nat) (fuel : Nat) (L R : List (Rec V))
    (hf : R.length < fuel) (hfin : fin = A.length + (L.length + R.length)) (hu : Uniform three R)
    (hR : ∀ x ∈ R, isLess cmp rev x.key x.idx pivot.key pivot.idx = true) :
    partLoop cmp rev pivot.key pivot.idx fin fuel (A ++ (L ++ (R ++ B))) (A.length + L.length) (A.length + L.length) =
      some (A ++ (L ++ (R ++ B)), A.length + (L.length + R.length)) := by
  induction fuel generalizing L R with
  | zero => omega
  | succ fuel ih =>
    rw [partLoop]
    cases R with
    | nil => rw [if_neg (by simp at hfin; omega)]; simp
    | cons x R =>
      rw [if_pos (by simp at hfin; omega), List.cons_append, get_mid A L x (R ++ B) _ rfl]
      simp only
      rw [if_pos (hR x (by simp))]
      obtain ⟨G', e1, e2, e3⟩ := move_left A L [] x (R ++ B) three (fun r hr => hu r (by simp at hr; simp [hr]))
      have : G' = [] := by simpa using e3
      subst this
      simp only [List.nil_append, List.length_nil, Nat.add_zero] at e1
      rw [e1]
      simp only
      have := ih (L ++ [x]) R (by simp at hf; omega) (by rw [hfin]; simp; omega) (fun r hr => hu r (by simp [hr]))
        (fun r hr => hR r (by simp [hr]))
      rw [List.length_append, List.length_singleton] at this
      rw [show A.length + L.length + 1 = A.length + (L.length + 1) by omega, this]
      simp; omega

/-- Sorting records in order already takes as many nested calls as there are records, less one. -/
theorem sorted_depth (cmp : V → V → Cmp) (rev three : Bool) (depth : Nat) (S B : List (Rec V)) (hs : S.Pairwise (Less cmp rev))
    (hirr : ∀ x ∈ S, ¬ Less cmp rev x x) (hu : Uniform three S) (hd : depth + 1 < S.length) :
    sortRange cmp rev depth (S ++ B) 0 S.length = none := by
  induction depth generalizing S B with
  | zero => rfl
  | succ depth ih =>
    obtain ⟨R, pivot, rfl⟩ : ∃ R pivot, S = R ++ [pivot] := by
      rcases List.eq_nil_or_concat S with h | ⟨R, p, h⟩
      · rw [h] at hd; simp at hd
      · exact ⟨R, p, by simpa using h⟩
    rw [List.length_append, List.length_singleton] at hd ⊢
    rw [List.pairwise_append] at hs
    rw [sortRange]
    have hfin : R.length + 1 - 1 = R.length := by omega
    rw [hfin]
    have hp : (R ++ [pivot] ++ B)[R.length]? = some pivot := by
      have := get_mid [] R pivot B R.length (by simp)
      simpa using this
    rw [hp]
    simp only
    have hall := partLoop_all cmp rev three pivot [] (pivot :: B) R.length (R.length + 1 - 0 + 1) [] R (by omega) (by simp)
      (fun r hr => hu r (by simp [hr])) (fun x hx => hs.2.2 x hx pivot (by simp))
    simp only [List.nil_append, List.length_nil, Nat.zero_add] at hall
    have eqa : R ++ [pivot] ++ B = R ++ pivot :: B := by simp
    rw [eqa, hall]
    simp only
    rw [show (R ++ pivot :: B)[R.length]? = some pivot by rw [← eqa]; exact hp]
    simp only
    rw [if_neg (by have := hirr pivot (by simp); exact this)]
    simp only
    rw [if_pos (by omega), ih R (pivot :: B) hs.1 (fun x hx => hirr x (by simp [hx])) (fun r hr => hu r (by simp [hr])) (by omega)]

/-- For any amount of stack there is an array in order already which overflows it: the recursion is as deep as the array is long. -/
theorem C38_depth_violated (depth : Nat) :
    ∃ src : Src Int, Holds src ((List.range (depth + 2)).map Int.ofNat) ∧ src.size = depth + 2 ∧
      sortArray Utils.compareInt true depth none false src = .bad := by
  refine ⟨⟨((List.range (depth + 2)).map Int.ofNat).map .val, depth + 2⟩, ⟨by simp, [], by simp⟩, rfl, ?_⟩
  unfold sortArray
  rw [if_pos (by simp), if_pos rfl]
  have e := expand_spec none ⟨((List.range (depth + 2)).map Int.ofNat).map .val, depth + 2⟩ [] ((List.range (depth + 2)).map Int.ofNat) [] (by simp)
  simp only [List.length_map, List.length_range, List.length_nil, Option.map_none] at e
  simp only
  rw [e]
  simp only
  generalize hr : recsOf none ((List.range (depth + 2)).map Int.ofNat) 0 = R
  have hlen : R.length = depth + 2 := by rw [← hr, recsOf_length]; simp
  have hkeys : R.map out = (List.range (depth + 2)).map Int.ofNat := by rw [← hr, recsOf_out]
  have hk : ∀ r ∈ R, r.key = out r := by
    intro r hr'
    rw [← hr] at hr'
    obtain ⟨v, j, rfl, _⟩ := recsOf_mem none _ 0 r hr'
    rfl
  have hs : R.Pairwise (Less Utils.compareInt false) := by
    have : ((List.range (depth + 2)).map Int.ofNat).Pairwise (· < ·) := by
      rw [List.pairwise_map]
      refine List.Pairwise.imp ?_ List.pairwise_lt_range
      intro a b h
      exact Int.ofNat_lt.mpr h
    rw [← hkeys, List.pairwise_map] at this
    refine List.Pairwise.imp_of_mem ?_ this
    intro a b ha hb h
    rw [isLess_iff _ compareInt_preorder, hk a ha, hk b hb]
    left
    simp [Utils.compareInt, h]
  have := sorted_depth Utils.compareInt false false depth R [] hs (by
    intro x _ hx
    rw [isLess_iff _ compareInt_preorder] at hx
    simp [Utils.compareInt] at hx) (by rw [← hr]; exact recsOf_uniform none _ 0) (by omega)
  rw [List.append_nil, hlen] at this
  rw [this]

/-- Ascending and descending, with and without a key function. -/
example : sortArray Utils.compareInt true 5 none false ⟨[.val 8, .val 5, .val 6, .val 0, .val 5, .tomb], 5⟩ = .ok [0, 5, 5, 6, 8] ∧
    sortArray Utils.compareInt true 5 (some (pureKey (· % 10))) false ⟨[.val 18, .val 5, .val 16, .val 8, .val 25], 5⟩ = .ok [5, 25, 16, 18, 8] ∧
    sortArray Utils.compareInt true 5 none true ⟨[.val 8, .val 5, .val 6, .val 0, .val 5], 5⟩ = .ok [8, 6, 5, 5, 0] := by
  decide +kernel

end Verif.Props
