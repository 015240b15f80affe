import Verif.Arr.Insert

namespace Verif.Arr

variable {V : Type}

theorem vals_of_cells (N : Nat) : ∀ (r : List (Cell V)), (∀ j, j < N → ∃ v, r[j]? = some (.val v)) →
    ∃ l2 : List V, l2.length = N ∧ r = l2.map .val ++ r.drop N := by
  induction N with
  | zero => intro r _; exact ⟨[], rfl, by simp⟩
  | succ N ih =>
    intro r h
    obtain ⟨v, hv⟩ := h 0 (by omega)
    cases r with
    | nil => simp at hv
    | cons c r =>
      simp only [List.getElem?_cons_zero, Option.some.injEq] at hv
      obtain ⟨l2, h1, h2⟩ := ih r (fun j hj => by
        obtain ⟨w, hw⟩ := h (j + 1) (by omega)
        exact ⟨w, by simpa using hw⟩)
      refine ⟨v :: l2, by simp [h1], ?_⟩
      rw [hv, List.map_cons, List.cons_append, List.drop_succ_cons, ← h2]

theorem getElem?_splice {α : Type} (l S : List α) (B E SB n j : Nat) (hB : B ≤ l.length) (hn : SB + n ≤ S.length) :
    (l.take B ++ (S.drop SB).take n ++ l.drop E)[j]? =
      if j < B then l[j]? else if j < B + n then S[SB + (j - B)]? else l[E + (j - B - n)]? := by
  have l1 : (l.take B).length = B := by rw [List.length_take]; omega
  have l2 : ((S.drop SB).take n).length = n := by rw [List.length_take, List.length_drop]; omega
  rw [List.append_assoc, List.getElem?_append, l1]
  split
  · rename_i h; rw [List.getElem?_take, if_pos h]
  · rw [List.getElem?_append, l2]
    split
    · rw [if_pos (by omega), List.getElem?_take, if_pos (by omega), List.getElem?_drop]
    · rw [if_neg (by omega), List.getElem?_drop]

/-- From the moved slots to the sequence. -/
theorem splice_list (l l1 S : List V) (k : Nat) (bS : List (Cell V)) (B E sb se : Int) (r : List (Cell V))
    (h0 : 0 ≤ B) (h1 : B ≤ E) (h2 : E ≤ l.length) (h3 : sb ≤ se) (h4 : sb < se → 0 ≤ sb ∧ se ≤ S.length)
    (hN : (l1.length : Int) = max (l.length : Int) (l.length - (E - B) + (se - sb))) (hl1 : l1.take l.length = l)
    (hS : ∀ i : Nat, sb ≤ i → (i : Int) < se → bS[i]? = (S[i]?).map .val)
    (hr : Splice (l1.map .val ++ List.replicate k .tomb) bS l.length B E sb se r) :
    ∃ l2 : List V, l2.length = l1.length ∧ r = l2.map .val ++ List.replicate k .tomb ∧
      l2.take ((l.length : Int) - (E - B) + (se - sb)).toNat = l.take B.toNat ++ (S.drop sb.toNat).take (se - sb).toNat ++ l.drop E.toNat := by
  have hlen := hr.len
  have bufv : ∀ j, j < l1.length → (l1.map Cell.val ++ List.replicate k .tomb)[j]? = (l1[j]?).map .val := by
    intro j hj
    rw [List.getElem?_append_left (by simpa using hj), List.getElem?_map]
  have l1l : ∀ j, j < l.length → l1[j]? = l[j]? := by
    intro j hj
    conv => rhs; rw [← hl1]
    rw [List.getElem?_take, if_pos hj]
  obtain ⟨l2, e1, e2⟩ := vals_of_cells l1.length r (fun j hj => by
    obtain ⟨m, hm⟩ := hr.src j (by omega)
    rcases hm with ⟨m1, m2⟩ | ⟨m1, m2, m3⟩
    · rw [m2, bufv m (by omega), List.getElem?_eq_getElem (by omega)]; exact ⟨_, rfl⟩
    · have := h4 (by omega)
      rw [m3, hS m m1 m2, List.getElem?_eq_getElem (by omega)]; exact ⟨_, rfl⟩)
  have edrop : r.drop l1.length = List.replicate k .tomb := by
    apply List.ext_getElem?
    intro j
    rw [List.getElem?_drop, hr.rest _ (by omega) (by omega), List.getElem?_append_right (by simp)]
    simp
  rw [edrop] at e2
  refine ⟨l2, e1, e2, ?_⟩
  apply List.ext_getElem?
  intro j
  by_cases hj : (j : Int) < l.length - (E - B) + (se - sb)
  · rw [List.getElem?_take, if_pos (by omega)]
    have hv : r[j]? = (l2[j]?).map .val := by
      rw [e2, List.getElem?_append_left (by simp; omega), List.getElem?_map]
    have hm := hr.main j hj
    rw [hv] at hm
    have inj : ∀ a b : Option V, a.map Cell.val = b.map Cell.val → a = b := by
      intro a b h; cases a <;> cases b <;> simp_all
    apply inj
    rw [hm]
    by_cases hz : sb < se
    · have h4' := h4 hz
      rw [getElem?_splice _ _ _ _ _ _ _ (by omega) (by omega)]
      by_cases a1 : (j : Int) < B
      · rw [if_pos a1, if_pos (by omega), bufv _ (by omega), l1l _ (by omega)]
      · rw [if_neg a1, if_neg (show ¬ j < B.toNat by omega)]
        by_cases a2 : (j : Int) < B + (se - sb)
        · rw [if_pos a2, if_pos (by omega), hS _ (by omega) (by omega)]; congr 2; omega
        · rw [if_neg a2, if_neg (by omega), bufv _ (by omega), l1l _ (by omega)]; congr 2; omega
    · have : (S.drop sb.toNat).take (se - sb).toNat = (S.drop S.length).take 0 := by
        rw [show (se - sb).toNat = 0 by omega]; simp
      rw [this, getElem?_splice _ _ _ _ _ _ _ (by omega) (by omega)]
      by_cases a1 : (j : Int) < B
      · rw [if_pos a1, if_pos (by omega), bufv _ (by omega), l1l _ (by omega)]
      · rw [if_neg a1, if_neg (by omega), if_neg (by omega), if_neg (by omega), bufv _ (by omega), l1l _ (by omega)]; congr 2; omega
  · rw [List.getElem?_eq_none (by rw [List.length_take]; omega)]
    rw [List.getElem?_eq_none]
    simp only [List.length_append, List.length_take, List.length_drop]; omega

/-- Where the elements to be inserted come from. -/
def srcList (l : List V) (src : Option (List V)) : List V := src.getD l

/-- The source range after normalization. -/
def srcRange (n : Nat) (sb se : Int) : Int × Int :=
  if sb ≠ se then (fixIndex sb n, if fixIndex se n < fixIndex sb n then fixIndex sb n else fixIndex se n) else (sb, se)

theorem insert_spec [DecidableEq V] (mem : Nat → Bool) (void : V) (dest : A V) (l : List V) (db de : Int)
    (src : Option (A V)) (ls : Option (List V)) (sb se : Int) (h : Rep dest l) (hro : dest.ro = false)
    (hsrc : match src, ls with | none, none => True | some o, some m => Rep o m | _, _ => False)
    (B E SB SE : Int) (hB : B = fixIndex db l.length) (hE : E = if fixIndex de l.length < B then B else fixIndex de l.length)
    (hSR : (SB, SE) = srcRange (srcList l ls).length sb se)
    (hbug : ¬ (src = none ∧ E ≤ SB ∧ 0 < SE - SB ∧ SE - SB < E - B)) :
    (∃ s', insert mem void dest db de src sb se = .ok () s' ∧ s'.ro = false ∧
      Rep s' (l.take B.toNat ++ ((srcList l ls).drop SB.toNat).take (SE - SB).toNat ++ l.drop E.toNat)) ∨
    (insert mem void dest db de src sb se = .raise .outOfMemory dest ∧ Refused mem ((l.length : Int) - (E - B) + (SE - SB)).toNat) := by
  have fB := fixIndex_nonneg db l.length
  have fE := fixIndex_nonneg de l.length
  have h0 : 0 ≤ B := by omega
  have h1 : B ≤ E := by subst hE; split <;> omega
  have h2 : E ≤ l.length := by subst hE; split <;> omega
  have h3 : SB ≤ SE ∧ (SB < SE → 0 ≤ SB ∧ SE ≤ (srcList l ls).length) := by
    unfold srcRange at hSR
    have f1 := fixIndex_nonneg sb (srcList l ls).length
    have f2 := fixIndex_nonneg se (srcList l ls).length
    by_cases hn : sb ≠ se
    · rw [if_pos hn] at hSR
      simp only [Prod.mk.injEq] at hSR
      obtain ⟨rfl, rfl⟩ := hSR
      constructor
      · split <;> omega
      · split <;> omega
    · rw [if_neg hn] at hSR
      simp only [Prod.mk.injEq] at hSR
      omega
  obtain ⟨h3, h4⟩ := h3
  have hmax := h.size_lt
  unfold maxSize at hmax
  have hsl : srcSize dest src = (srcList l ls).length := by
    cases src with
    | none => cases ls with
      | none => exact h.1
      | some m => exact hsrc.elim
    | some o => cases ls with
      | none => exact hsrc.elim
      | some m => exact hsrc.1
  unfold insert
  rw [hro]
  simp only [Bool.false_eq_true, if_false]
  rw [hsl, h.1, ← hB, ← hE]
  have eSB : (if sb ≠ se then fixIndex sb (srcList l ls).length else sb) = SB := by
    unfold srcRange at hSR
    split at hSR <;> simp only [Prod.mk.injEq] at hSR
    · rename_i hn; rw [if_pos hn, hSR.1]
    · rename_i hn; rw [if_neg hn, hSR.1]
  have eSE : (if sb ≠ se then if fixIndex se (srcList l ls).length < fixIndex sb (srcList l ls).length then fixIndex sb (srcList l ls).length
      else fixIndex se (srcList l ls).length else se) = SE := by
    unfold srcRange at hSR
    split at hSR <;> simp only [Prod.mk.injEq] at hSR
    · rename_i hn; rw [if_pos hn, hSR.2]
    · rename_i hn; rw [if_neg hn, hSR.2]
  rw [eSB, eSE]
  -- the first resize
  have r1 : (∃ d1 l1, (if SE - SB > E - B then resize mem dest void ((l.length : Int) - (E - B) + (SE - SB)).toNat else .ok () dest) = .ok () d1 ∧
      Rep d1 l1 ∧ d1.ro = false ∧ (l1.length : Int) = max (l.length : Int) (l.length - (E - B) + (SE - SB)) ∧ l1.take l.length = l) ∨
      ((if SE - SB > E - B then resize mem dest void ((l.length : Int) - (E - B) + (SE - SB)).toNat else .ok () dest) = .raise .outOfMemory dest ∧
        Refused mem ((l.length : Int) - (E - B) + (SE - SB)).toNat) := by
    by_cases hg : SE - SB > E - B
    · rw [if_pos hg]
      rcases resize_spec mem dest l void ((l.length : Int) - (E - B) + (SE - SB)).toNat h hro with ⟨s', e, hr, hr', _⟩ | ⟨e, _, hn⟩
      · left
        refine ⟨s', _, e, hr, hr', ?_, ?_⟩
        · simp only [List.length_append, List.length_take, List.length_replicate]; omega
        · rw [List.take_of_length_le (l := l) (by omega)]; simp
      · right; exact ⟨e, hn⟩
    · rw [if_neg hg]
      left
      exact ⟨dest, l, rfl, h, hro, by omega, by simp⟩
  rcases r1 with ⟨d1, l1, e1, hr1, hro1, hN, hl1⟩ | ⟨e1, hn⟩
  · left
    rw [e1]
    simp only
    -- the source block
    have sblk : ∃ bS, srcBlock (SB != SE) src = some bS ∧
        (bS = none ↔ src = none) ∧
        (∀ o', bS = some o' → (SB < SE → SE ≤ o'.length) ∧ ∀ i : Nat, SB ≤ i → (i : Int) < SE → o'[i]? = ((srcList l ls)[i]?).map .val) := by
      cases src with
      | none => exact ⟨none, rfl, by simp, by simp⟩
      | some o =>
        cases ls with
        | none => exact hsrc.elim
        | some m =>
          by_cases hn : SB ≠ SE
          · simp only [srcBlock, bne_iff_ne, if_pos hn]
            obtain ⟨o1, o2⟩ := hsrc
            have hm := h4 (by omega)
            have e : srcList l (some m) = m := rfl
            rw [e] at hm
            cases hd : o.data with
            | none => rw [hd] at o2; simp only at o2; subst o2; simp at hm; omega
            | some ob =>
              rw [hd] at o2
              obtain ⟨k, eo, _, _⟩ := o2
              refine ⟨some ob, rfl, by simp, fun o' ho' => ?_⟩
              simp only [Option.some.injEq] at ho'
              subst ho'
              refine ⟨fun _ => by rw [eo]; simp; omega, fun i hi hi' => ?_⟩
              rw [eo, List.getElem?_append_left (by simp; omega), List.getElem?_map]; rfl
          · simp only [srcBlock, bne_iff_ne, if_neg hn]
            refine ⟨_, rfl, by simp, fun o' ho' => ?_⟩
            exact ⟨by omega, fun i hi hi' => by omega⟩
    obtain ⟨bS, eS, hbn, hbs⟩ := sblk
    rw [eS]
    obtain ⟨hs1, hd1⟩ := hr1
    -- the moves
    have mv : ∃ data l2, insertData d1.data (some bS) l.length B E SB SE (E - B) (SE - SB) = some data ∧
        Rep { d1 with data := data } l2 ∧ l2.length = l1.length ∧
        l2.take ((l.length : Int) - (E - B) + (SE - SB)).toNat = l.take B.toNat ++ ((srcList l ls).drop SB.toNat).take (SE - SB).toNat ++ l.drop E.toNat := by
      cases hd : d1.data with
      | none =>
        rw [hd] at hd1
        simp only at hd1
        subst hd1
        simp only [List.length_nil] at hN
        simp only [insertData]
        rw [if_pos (by omega)]
        have : l = [] := List.length_eq_zero_iff.mp (by omega)
        subst this
        refine ⟨none, [], rfl, ⟨by simpa using hs1, rfl⟩, rfl, ?_⟩
        rw [show (SE - SB).toNat = 0 by omega]; simp
      | some b =>
        rw [hd] at hd1
        obtain ⟨k, eb, hp, hq⟩ := hd1
        simp only [insertData]
        have hbl : b.length = l1.length + k := by have := congrArg List.length eb; simpa using this
        have fin : ∀ r S', (∀ i : Nat, SB ≤ i → (i : Int) < SE → S'[i]? = ((srcList l ls)[i]?).map .val) → Splice b S' l.length B E SB SE r →
            ∃ l2, Rep { d1 with data := some r } l2 ∧ l2.length = l1.length ∧
              l2.take ((l.length : Int) - (E - B) + (SE - SB)).toNat = l.take B.toNat ++ ((srcList l ls).drop SB.toNat).take (SE - SB).toNat ++ l.drop E.toNat := by
          intro r S' hS' hr
          rw [eb] at hr
          obtain ⟨l2, q1, q2, q3⟩ := splice_list l l1 (srcList l ls) k S' B E SB SE r h0 h1 h2 h3 h4 hN hl1 hS' hr
          refine ⟨l2, ⟨by simpa [q1] using hs1, k, q2, ?_, ?_⟩, q1, q3⟩
          · rw [hr.len, ← eb]; exact hp
          · rw [hr.len, ← eb]; exact hq
        cases bS with
        | none =>
          have hsn := hbn.mp rfl
          subst hsn
          have hlsn : ls = none := by cases ls with
            | none => rfl
            | some m => exact hsrc.elim
          subst hlsn
          have e : srcList l none = l := rfl
          rw [e] at h4 fin ⊢
          obtain ⟨r, er, hr⟩ := insertMoves_self b l.length B E SB SE h0 h1 h2 h3 h4 (by omega) (by omega) (by omega) (by
            intro hh; exact hbug ⟨rfl, hh⟩)
          rw [er]
          obtain ⟨l2, q1, q2, q3⟩ := fin r b (fun i hi hi' => by
            rw [eb, List.getElem?_append_left (by simp; omega), List.getElem?_map]
            congr 1
            conv => rhs; rw [← hl1]
            rw [List.getElem?_take, if_pos (by omega)]) hr
          exact ⟨some r, l2, rfl, q1, q2, q3⟩
        | some o' =>
          obtain ⟨p1, p2⟩ := hbs o' rfl
          obtain ⟨r, er, hr⟩ := insertMoves_other b o' l.length B E SB SE h0 h1 h2 h3 (fun hh => ⟨(h4 hh).1, p1 hh⟩) (by omega) (by omega)
          rw [er]
          obtain ⟨l2, q1, q2, q3⟩ := fin r o' p2 hr
          exact ⟨some r, l2, rfl, q1, q2, q3⟩
    obtain ⟨data, l2, em, hr2, hl2, ht⟩ := mv
    rw [em]
    simp only
    by_cases hs : SE - SB < E - B
    · rw [if_pos hs]
      rcases resize_spec mem { d1 with data := data } l2 void ((l.length : Int) - (E - B) + (SE - SB)).toNat hr2 hro1 with ⟨s', e, hr, hr', _⟩ | ⟨_, hlt, _⟩
      · rw [e]
        refine ⟨s', rfl, hr', ?_⟩
        rw [show ((l.length : Int) - (E - B) + (SE - SB)).toNat - l2.length = 0 by omega, List.replicate_zero, List.append_nil, ht] at hr
        exact hr
      · have := hr2.capacity_ge
        omega
    · rw [if_neg hs]
      refine ⟨_, rfl, hro1, ?_⟩
      rw [List.take_of_length_le (by omega)] at ht
      rw [← ht]; exact hr2
  · right
    rw [e1]
    exact ⟨rfl, hn⟩

end Verif.Arr
