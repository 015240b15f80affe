import Verif.Base.Sort

/-! Lemmas on sorting. -/
namespace Verif.Base

open Verif.Utils (Cmp)

variable {V : Type}

/-- All records have a third word, or none has. -/
def Uniform (three : Bool) (l : List (Rec V)) : Prop := ∀ r ∈ l, r.val.isSome = three

theorem exchange_spec (a : List (Rec V)) (p mid : Nat) (x m : Rec V) (hp : a[p]? = some x) (hm : a[mid]? = some m)
    (hv : x.val.isSome = m.val.isSome) : exchange a p mid x.key x.idx = some ((a.set p m).set mid x) := by
  obtain ⟨hpl, _⟩ := List.getElem?_eq_some_iff.mp hp
  obtain ⟨hml, _⟩ := List.getElem?_eq_some_iff.mp hm
  obtain ⟨xk, xi, xv⟩ := x
  obtain ⟨mk, mi, mv⟩ := m
  unfold exchange
  rw [hp, hm]
  simp only
  by_cases hpm : p = mid
  · subst hpm
    rw [hp] at hm
    injection hm with hm
    injection hm with h1 h2 h3
    subst h1 h2 h3
    simp only [List.getElem?_set_self hpl, List.length_set, List.set_set]
    cases xv <;> rfl
  · have h1 : ∀ y, (a.set p y)[mid]? = some ⟨mk, mi, mv⟩ := fun y => by rw [List.getElem?_set_ne hpm, hm]
    rw [h1]
    simp only
    rw [List.getElem?_set_ne (fun c => hpm c.symm), List.getElem?_set_self hpl, List.getElem?_set_self (by simpa using hml)]
    simp only
    cases xv with
    | none =>
      cases mv with
      | none => rfl
      | some => simp at hv
    | some v =>
      cases mv with
      | none => simp at hv
      | some w =>
        simp only
        rw [List.getElem?_set_ne hpm, List.getElem?_set_self (by simpa using hml)]
        simp only
        rw [List.set_comm _ _ (fun c => hpm c.symm), List.set_set, List.set_set]

theorem get_mid (A S : List (Rec V)) (x : Rec V) (B : List (Rec V)) (n : Nat) (h : n = A.length + S.length) :
    (A ++ (S ++ x :: B))[n]? = some x := by
  subst h
  rw [← List.append_assoc, List.getElem?_append_right (by simp)]
  simp

/-- One step of the partition: an element less than the pivot moves to the end of the left part. -/
theorem move_left (A L G : List (Rec V)) (x : Rec V) (B : List (Rec V)) (three : Bool) (hu : Uniform three (G ++ [x])) :
    ∃ G', exchange (A ++ (L ++ (G ++ x :: B))) (A.length + (L.length + G.length)) (A.length + L.length) x.key x.idx =
        some (A ++ ((L ++ [x]) ++ (G' ++ B))) ∧ G'.Perm G ∧ G'.length = G.length := by
  have hp : (A ++ (L ++ (G ++ x :: B)))[A.length + (L.length + G.length)]? = some x := by
    have := get_mid A (L ++ G) x B (A.length + (L.length + G.length)) (by simp)
    simpa using this
  cases G with
  | nil =>
    refine ⟨[], ?_, .refl _, rfl⟩
    have hm : (A ++ (L ++ ([] ++ x :: B)))[A.length + L.length]? = some x := get_mid A L x B _ rfl
    rw [exchange_spec _ _ _ x x hp hm rfl]
    simp [List.set_append]
  | cons g G =>
    refine ⟨G ++ [g], ?_, List.perm_append_singleton _ _, by simp⟩
    have hm : (A ++ (L ++ (g :: G ++ x :: B)))[A.length + L.length]? = some g := get_mid A L g (G ++ x :: B) _ rfl
    rw [exchange_spec _ _ _ x g hp hm (by rw [hu x (by simp), hu g (by simp)])]
    simp [List.set_append]

theorem partLoop_spec (cmp : V → V → Cmp) (rev three : Bool) (pivot : Rec V) (A B : List (Rec V)) (fin : Nat) (fuel : Nat)
    (L G R : List (Rec V)) (hf : R.length < fuel) (hfin : fin = A.length + (L.length + (G.length + R.length)))
    (hu : Uniform three (L ++ (G ++ R))) (hL : ∀ x ∈ L, isLess cmp rev x.key x.idx pivot.key pivot.idx = true)
    (hG : ∀ x ∈ G, isLess cmp rev x.key x.idx pivot.key pivot.idx = false) :
    ∃ L' G', partLoop cmp rev pivot.key pivot.idx fin fuel (A ++ (L ++ (G ++ (R ++ B)))) (A.length + L.length) (A.length + (L.length + G.length)) =
        some (A ++ (L' ++ (G' ++ B)), A.length + L'.length) ∧ (L' ++ G').Perm (L ++ (G ++ R)) ∧
      (∀ x ∈ L', isLess cmp rev x.key x.idx pivot.key pivot.idx = true) ∧
      (∀ x ∈ G', isLess cmp rev x.key x.idx pivot.key pivot.idx = false) := by
  induction fuel generalizing L G R with
  | zero => omega
  | succ fuel ih =>
    rw [partLoop]
    cases R with
    | nil =>
      rw [if_neg (by simp at hfin; omega)]
      exact ⟨L, G, rfl, by simp, hL, hG⟩
    | cons x R =>
      rw [if_pos (by simp at hfin; omega)]
      have hp : (A ++ (L ++ (G ++ (x :: R ++ B))))[A.length + (L.length + G.length)]? = some x := by
        have := get_mid A (L ++ G) x (R ++ B) (A.length + (L.length + G.length)) (by simp)
        simpa using this
      rw [hp]
      simp only
      by_cases hl : isLess cmp rev x.key x.idx pivot.key pivot.idx = true
      · rw [if_pos hl]
        obtain ⟨G', e1, e2, e3⟩ := move_left A L G x (R ++ B) three (fun r hr => hu r (by
          simp only [List.mem_append, List.mem_cons] at hr ⊢
          grind))
        rw [List.cons_append, e1]
        simp only
        have hmem : ∀ r, r ∈ (L ++ [x]) ++ (G' ++ R) ↔ r ∈ L ++ (G ++ x :: R) := by
          intro r
          simp only [List.mem_append, List.mem_cons, e2.mem_iff]
          constructor <;> (intro h; grind)
        obtain ⟨L', G'', f1, f2, f3, f4⟩ := ih (L ++ [x]) G' R (by simp at hf; omega)
          (by rw [hfin, List.length_append, List.length_cons, e3]; simp; omega)
          (fun r hr => hu r ((hmem r).mp hr))
          (fun r hr => by
            rcases List.mem_append.mp hr with hr | hr
            · exact hL r hr
            · rw [List.mem_singleton] at hr; subst hr; exact hl)
          (fun r hr => hG r (e2.mem_iff.mp hr))
        refine ⟨L', G'', ?_, ?_, f3, f4⟩
        · rw [← f1]
          congr 1
          · simp; omega
          · simp; omega
        · refine f2.trans ?_
          rw [List.append_assoc L [x]]
          refine List.Perm.append_left L ?_
          rw [List.singleton_append]
          exact (List.Perm.cons x (e2.append_right R)).trans List.perm_middle.symm
      · rw [if_neg hl]
        obtain ⟨L', G', f1, f2, f3, f4⟩ := ih L (G ++ [x]) R (by simp at hf; omega) (by rw [hfin]; simp; omega)
          (by simpa using hu) hL
          (fun r hr => by
            rcases List.mem_append.mp hr with hr | hr
            · exact hG r hr
            · rw [List.mem_singleton] at hr; subst hr; simpa using hl)
        refine ⟨L', G', ?_, by simpa using f2, f3, f4⟩
        rw [← f1]
        congr 1
        · simp
        · simp; omega

/-- `x` goes before `y`. -/
def Less (cmp : V → V → Cmp) (rev : Bool) (x y : Rec V) : Prop := isLess cmp rev x.key x.idx y.key y.idx = true

/-- The order of the records is strict and total. -/
structure StrictTotal (cmp : V → V → Cmp) (rev : Bool) (S : List (Rec V)) : Prop where
  trans : ∀ x y z, x ∈ S → y ∈ S → z ∈ S → Less cmp rev x y → Less cmp rev y z → Less cmp rev x z
  total : ∀ x y, x ∈ S → y ∈ S → x ≠ y → ¬ Less cmp rev x y → Less cmp rev y x
  nodup : S.Nodup

theorem StrictTotal.sub {cmp : V → V → Cmp} {rev : Bool} {S T : List (Rec V)} (h : StrictTotal cmp rev S) (hs : ∀ x ∈ T, x ∈ S)
    (hn : T.Nodup) : StrictTotal cmp rev T :=
  ⟨fun x y z hx hy hz => h.trans x y z (hs x hx) (hs y hy) (hs z hz), fun x y hx hy => h.total x y (hs x hx) (hs y hy), hn⟩

theorem sortRange_spec (cmp : V → V → Cmp) (rev three : Bool) (depth : Nat) (A S B : List (Rec V)) (h0 : 0 < S.length) (hd : S.length ≤ depth)
    (hu : Uniform three S) :
    ∃ S', sortRange cmp rev depth (A ++ (S ++ B)) A.length (A.length + S.length) = some (A ++ (S' ++ B)) ∧ S'.Perm S ∧
      (StrictTotal cmp rev S → S'.Pairwise (Less cmp rev)) := by
  induction depth generalizing A S B with
  | zero => omega
  | succ depth ih =>
    obtain ⟨R, pivot, rfl⟩ : ∃ R pivot, S = R ++ [pivot] := by
      rcases List.eq_nil_or_concat S with h | ⟨R, p, h⟩
      · rw [h] at h0; simp at h0
      · exact ⟨R, p, by simpa using h⟩
    rw [List.length_append, List.length_singleton] at hd ⊢
    have hfin : A.length + (R.length + 1) - 1 = A.length + R.length := by omega
    rw [sortRange, hfin]
    have hp : (A ++ (R ++ [pivot] ++ B))[A.length + R.length]? = some pivot := by
      have := get_mid A R pivot B _ rfl
      simpa using this
    rw [hp]
    simp only
    obtain ⟨L, G, e1, e2, e3, e4⟩ := partLoop_spec cmp rev three pivot A (pivot :: B) (A.length + R.length) (A.length + (R.length + 1) - A.length + 1)
      [] [] R (by omega) (by simp) (fun r hr => hu r (by simp at hr ⊢; exact Or.inl hr)) (by simp) (by simp)
    simp only [List.nil_append, List.length_nil, Nat.add_zero] at e1 e2
    have eqa : A ++ (R ++ [pivot] ++ B) = A ++ (R ++ pivot :: B) := by simp
    rw [eqa, e1]
    simp only
    have hlen : L.length + G.length = R.length := by have := e2.length_eq; simpa using this
    have huR : ∀ r, r ∈ L ∨ r ∈ G → r.val.isSome = three := fun r hr =>
      hu r (by rw [List.mem_append, ← e2.mem_iff, List.mem_append]; exact Or.inl hr)
    have hup : pivot.val.isSome = three := hu pivot (by simp)
    -- after placing the pivot
    have place : ∃ x y G', (A ++ (L ++ (G ++ pivot :: B)))[A.length + L.length]? = some x ∧
        (if isLess cmp rev pivot.key pivot.idx x.key x.idx = true then
          exchange (A ++ (L ++ (G ++ pivot :: B))) (A.length + R.length) (A.length + L.length) pivot.key pivot.idx
        else some (A ++ (L ++ (G ++ pivot :: B)))) = some (A ++ (L ++ y :: (G' ++ B))) ∧ (y :: G').Perm (pivot :: G) ∧
        (StrictTotal cmp rev (R ++ [pivot]) → y = pivot) := by
      have hpp : (A ++ (L ++ (G ++ pivot :: B)))[A.length + R.length]? = some pivot := by
        have := get_mid A (L ++ G) pivot B (A.length + R.length) (by simp; omega)
        simpa using this
      cases G with
      | nil =>
        have hLR : L.length = R.length := by simpa using hlen
        refine ⟨pivot, pivot, [], get_mid A L pivot B _ rfl, ?_, .refl _, fun _ => rfl⟩
        split
        · rw [exchange_spec _ _ _ pivot pivot hpp (get_mid A L pivot B _ rfl) rfl, ← hLR]
          simp [List.set_append]
        · simp
      | cons g G =>
        have hg : (A ++ (L ++ (g :: G ++ pivot :: B)))[A.length + L.length]? = some g := get_mid A L g (G ++ pivot :: B) _ rfl
        by_cases hl : isLess cmp rev pivot.key pivot.idx g.key g.idx = true
        · refine ⟨g, pivot, G ++ [g], hg, ?_, List.Perm.cons _ (List.perm_append_singleton _ _), fun _ => rfl⟩
          rw [if_pos hl, exchange_spec _ _ _ pivot g hpp hg (by rw [hup, huR g (by simp)])]
          have : A.length + R.length = A.length + (L.length + (G.length + 1)) := by simp at hlen; omega
          rw [this]
          simp [List.set_append]
        · refine ⟨g, g, G ++ [pivot], hg, ?_, ?_, ?_⟩
          · rw [if_neg hl]; simp
          · exact (List.Perm.cons g (List.perm_append_singleton pivot G)).trans (List.Perm.swap _ _ _)
          · intro hst
            have hgR : g ∈ R := e2.mem_iff.mp (by simp)
            have hne : g ≠ pivot := by
              rintro rfl
              have := hst.nodup
              rw [List.nodup_append] at this
              exact this.2.2 g hgR g (by simp) rfl
            have := hst.total g pivot (by simp [hgR]) (by simp) hne (by
              unfold Less
              have := e4 g (by simp)
              simp [this])
            exact absurd this hl
    obtain ⟨x, y, G', p1, p2, p3, p4⟩ := place
    rw [p1]
    simp only
    rw [p2]
    simp only
    have hG' : G'.length = G.length := by have := p3.length_eq; simpa using this
    have huL : Uniform three L := fun r hr => huR r (Or.inl hr)
    have huG' : Uniform three G' := by
      intro r hr
      have : r ∈ pivot :: G := p3.mem_iff.mp (by simp [hr])
      rcases List.mem_cons.mp this with rfl | h
      · exact hup
      · exact huR r (Or.inr h)
    have hallp : (L ++ y :: G').Perm (R ++ [pivot]) := by
      refine (List.Perm.append_left L p3).trans ?_
      refine List.perm_middle.trans ?_
      refine (List.Perm.cons pivot e2).trans ?_
      exact (List.perm_append_singleton pivot R).symm
    -- left part
    have left : ∃ L', (if A.length + 1 < A.length + L.length then
          sortRange cmp rev depth (A ++ (L ++ y :: (G' ++ B))) A.length (A.length + L.length)
        else some (A ++ (L ++ y :: (G' ++ B)))) = some (A ++ (L' ++ y :: (G' ++ B))) ∧ L'.Perm L ∧
        (StrictTotal cmp rev L → L'.Pairwise (Less cmp rev)) := by
      by_cases hc : A.length + 1 < A.length + L.length
      · rw [if_pos hc]
        exact ih A L (y :: (G' ++ B)) (by omega) (by omega) huL
      · rw [if_neg hc]
        refine ⟨L, rfl, .refl _, fun _ => ?_⟩
        match L, hc with
        | [], _ => exact .nil
        | [z], _ => exact List.pairwise_singleton _ _
        | _ :: _ :: _, hc => simp at hc
    obtain ⟨L', l1, l2, l3⟩ := left
    rw [l1]
    simp only
    have right : ∃ G'', (if A.length + L.length + 1 < A.length + R.length then
          sortRange cmp rev depth (A ++ (L' ++ y :: (G' ++ B))) (A.length + L.length + 1) (A.length + (R.length + 1))
        else some (A ++ (L' ++ y :: (G' ++ B)))) = some (A ++ (L' ++ y :: (G'' ++ B))) ∧ G''.Perm G' ∧
        (StrictTotal cmp rev G' → G''.Pairwise (Less cmp rev)) := by
      by_cases hc : A.length + L.length + 1 < A.length + R.length
      · rw [if_pos hc]
        obtain ⟨G'', g1, g2, g3⟩ := ih (A ++ (L' ++ [y])) G' B (by omega) (by omega) huG'
        refine ⟨G'', ?_, g2, g3⟩
        have k1 : A ++ (L' ++ y :: (G' ++ B)) = A ++ (L' ++ [y]) ++ (G' ++ B) := by simp
        have k2 : A ++ (L' ++ y :: (G'' ++ B)) = A ++ (L' ++ [y]) ++ (G'' ++ B) := by simp
        have k3 : (A ++ (L' ++ [y])).length = A.length + L.length + 1 := by
          simp only [List.length_append, List.length_singleton, l2.length_eq]; omega
        rw [k1, k2, ← g1, k3]
        congr 1
        omega
      · rw [if_neg hc]
        refine ⟨G', rfl, .refl _, fun _ => ?_⟩
        have : G'.length ≤ 1 := by omega
        match G', this with
        | [], _ => exact .nil
        | [z], _ => exact List.pairwise_singleton _ _
        | _ :: _ :: _, h => simp at h
    obtain ⟨G'', r1, r2, r3⟩ := right
    rw [r1]
    refine ⟨L' ++ y :: G'', by simp, ?_, ?_⟩
    · exact (l2.append (List.Perm.cons y r2)).trans hallp
    · intro hst
      have hyp := p4 hst
      subst hyp
      have hnd : (L ++ y :: G').Nodup := hallp.nodup_iff.mpr hst.nodup
      have hmem : ∀ z, z ∈ L ++ y :: G' → z ∈ R ++ [y] := fun z hz => hallp.mem_iff.mp hz
      rw [List.nodup_append, List.nodup_cons] at hnd
      have hLy : ∀ z ∈ L', Less cmp rev z y := fun z hz => e3 z (l2.mem_iff.mp hz)
      have hyG : ∀ z ∈ G'', Less cmp rev y z := by
        intro z hz
        have hz' : z ∈ G' := r2.mem_iff.mp hz
        have hzG : z ∈ G := by
          have := p3.mem_iff.mp (show z ∈ y :: G' by simp [hz'])
          rcases List.mem_cons.mp this with rfl | h
          · exact absurd hz' hnd.2.1.1
          · exact h
        refine hst.total z y (hmem z (by simp [hz'])) (by simp) ?_ ?_
        · rintro rfl; exact hnd.2.1.1 hz'
        · unfold Less; rw [e4 z hzG]; simp
      rw [List.pairwise_append, List.pairwise_cons]
      refine ⟨l3 (hst.sub (fun z hz => hmem z (by simp [hz])) hnd.1), ⟨hyG, r3 (hst.sub (fun z hz => hmem z (by simp [hz])) hnd.2.1.2)⟩, ?_⟩
      intro z hz w hw
      rcases List.mem_cons.mp hw with rfl | hw
      · exact hLy z hz
      · exact hst.trans z y w (hmem z (by simp [l2.mem_iff.mp hz])) (by simp) (hmem w (by simp [r2.mem_iff.mp hw])) (hLy z hz) (hyG w hw)

end Verif.Base
