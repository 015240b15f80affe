import Verif.Arr.Ops

/-! `KOS_array_insert` is a splice. -/
namespace Verif.Arr

variable {V : Type}

/-- What the moves of `KOS_array_insert` have to achieve on the slots. -/
structure Splice {α : Type} (buf S : List α) (destLen db de sb se : Int) (r : List α) : Prop where
  len : r.length = buf.length
  main : ∀ j : Nat, (j : Int) < destLen - (de - db) + (se - sb) →
    r[j]? = if (j : Int) < db then buf[j]? else if (j : Int) < db + (se - sb) then S[(sb + (j - db)).toNat]?
      else buf[((j : Int) - (se - sb) + (de - db)).toNat]?
  rest : ∀ j : Nat, destLen ≤ j → destLen - (de - db) + (se - sb) ≤ j → r[j]? = buf[j]?
  src : ∀ j : Nat, (j : Int) < max destLen (destLen - (de - db) + (se - sb)) →
    ∃ k : Nat, ((k : Int) < max destLen (destLen - (de - db) + (se - sb)) ∧ r[j]? = buf[k]?) ∨ (sb ≤ k ∧ (k : Int) < se ∧ r[j]? = S[k]?)

theorem insertMoves_other {α : Type} (buf o : List α) (destLen db de sb se : Int)
    (h0 : 0 ≤ db) (h1 : db ≤ de) (h2 : de ≤ destLen) (h3 : sb ≤ se) (h4 : sb < se → 0 ≤ sb ∧ se ≤ o.length)
    (hl : destLen ≤ buf.length) (hn : destLen - (de - db) + (se - sb) ≤ buf.length) :
    ∃ r, insertMoves buf (some o) destLen db de sb se (de - db) (se - sb) = some r ∧ Splice buf o destLen db de sb se r := by
  unfold insertMoves
  rw [if_pos (Or.inl (by simp))]
  have s1 : ∃ b1, (if se - sb ≠ de - db ∧ de < destLen then moveIn buf (de - (de - db) + (se - sb)) de (destLen - de).toNat else some buf) = some b1 ∧
      b1.length = buf.length ∧ ∀ j : Nat, b1[j]? = if db + (se - sb) ≤ j ∧ (j : Int) < destLen - (de - db) + (se - sb) then
        buf[((j : Int) - (se - sb) + (de - db)).toNat]? else buf[j]? := by
    by_cases hc : se - sb ≠ de - db ∧ de < destLen
    · rw [if_pos hc]
      obtain ⟨r, e, hr1, hr2⟩ := moveIn_spec buf (de - (de - db) + (se - sb)) de (destLen - de).toNat (by omega) (by omega) (by omega) (by omega) (by omega)
      refine ⟨r, e, hr1, fun j => ?_⟩
      rw [hr2 j]
      by_cases hj : db + (se - sb) ≤ (j : Int) ∧ (j : Int) < destLen - (de - db) + (se - sb)
      · rw [if_pos hj, if_pos (by omega)]; congr 1; omega
      · rw [if_neg hj, if_neg (by omega)]
    · rw [if_neg hc]
      refine ⟨buf, rfl, rfl, fun j => ?_⟩
      split
      · congr 1; omega
      · rfl
  obtain ⟨b1, e1, l1, g1⟩ := s1
  rw [e1]
  simp only [reduceCtorEq, false_and, if_false]
  by_cases hz : se - sb ≠ 0
  · rw [if_pos hz]
    have h4' := h4 (by omega)
    obtain ⟨r, e, hr1, hr2⟩ := moveFrom_spec b1 o db sb (se - sb).toNat (by omega) h0 h4'.1 (by omega) (by omega)
    refine ⟨r, e, by omega, ?_, ?_, ?_⟩
    · intro j hj
      rw [hr2 j]
      by_cases a1 : (j : Int) < db
      · rw [if_neg (by omega), if_pos a1, g1, if_neg (by omega)]
      · by_cases a2 : (j : Int) < db + (se - sb)
        · rw [if_pos (by omega), if_neg a1, if_pos a2]; congr 1; omega
        · rw [if_neg (by omega), if_neg a1, if_neg a2, g1, if_pos (by omega)]
    · intro j hj hj'
      rw [hr2 j, if_neg (by omega), g1, if_neg (by omega)]
    · intro j hj
      rw [hr2 j]
      split
      · exact ⟨_, Or.inr ⟨by omega, by omega, rfl⟩⟩
      · rw [g1]
        split
        · exact ⟨_, Or.inl ⟨by omega, rfl⟩⟩
        · exact ⟨j, Or.inl ⟨by omega, rfl⟩⟩
  · rw [if_neg hz]
    refine ⟨b1, rfl, l1, ?_, ?_, ?_⟩
    · intro j hj
      rw [g1]
      by_cases a1 : (j : Int) < db
      · rw [if_neg (by omega), if_pos a1]
      · rw [if_pos (by omega), if_neg a1, if_neg (by omega)]
    · intro j hj hj'
      rw [g1, if_neg (by omega)]
    · intro j hj
      rw [g1]
      split
      · exact ⟨_, Or.inl ⟨by omega, rfl⟩⟩
      · exact ⟨j, Or.inl ⟨by omega, rfl⟩⟩

/-- Source and destination are the same array.  `hbug` excludes the case in which the code computes
`src_delta - dest_delta` as a large unsigned number. -/
theorem insertMoves_self {α : Type} (buf : List α) (destLen db de sb se : Int)
    (h0 : 0 ≤ db) (h1 : db ≤ de) (h2 : de ≤ destLen) (h3 : sb ≤ se) (h4 : sb < se → 0 ≤ sb ∧ se ≤ destLen)
    (hl : destLen ≤ buf.length) (hn : destLen - (de - db) + (se - sb) ≤ buf.length) (hmax : destLen < 4294967296)
    (hbug : ¬ (de ≤ sb ∧ 0 < se - sb ∧ se - sb < de - db)) :
    ∃ r, insertMoves buf none destLen db de sb se (de - db) (se - sb) = some r ∧ Splice buf buf destLen db de sb se r := by
  unfold insertMoves
  by_cases hc1 : se ≤ db ∨ sb ≥ de ∨ se - sb = 0
  · rw [if_pos (Or.inr hc1)]
    have s1 : ∃ b1, (if se - sb ≠ de - db ∧ de < destLen then moveIn buf (de - (de - db) + (se - sb)) de (destLen - de).toNat else some buf) = some b1 ∧
        b1.length = buf.length ∧ ∀ j : Nat, b1[j]? = if db + (se - sb) ≤ j ∧ (j : Int) < destLen - (de - db) + (se - sb) then
          buf[((j : Int) - (se - sb) + (de - db)).toNat]? else buf[j]? := by
      by_cases hc : se - sb ≠ de - db ∧ de < destLen
      · rw [if_pos hc]
        obtain ⟨r, e, hr1, hr2⟩ := moveIn_spec buf (de - (de - db) + (se - sb)) de (destLen - de).toNat (by omega) (by omega) (by omega) (by omega) (by omega)
        refine ⟨r, e, hr1, fun j => ?_⟩
        rw [hr2 j]
        by_cases hj : db + (se - sb) ≤ (j : Int) ∧ (j : Int) < destLen - (de - db) + (se - sb)
        · rw [if_pos hj, if_pos (by omega)]; congr 1; omega
        · rw [if_neg hj, if_neg (by omega)]
      · rw [if_neg hc]
        refine ⟨buf, rfl, rfl, fun j => ?_⟩
        split
        · congr 1; omega
        · rfl
    obtain ⟨b1, e1, l1, g1⟩ := s1
    rw [e1]
    simp only [true_and]
    by_cases hz : se - sb ≠ 0
    · rw [if_pos hz]
      have h4' := h4 (by omega)
      have hsb : ∃ sb', (if sb ≥ de then sb + (se - sb - (de - db)) % 4294967296 else sb) = sb' ∧
          ((sb ≥ de ∧ sb' = sb + (se - sb) - (de - db)) ∨ (se ≤ db ∧ sb' = sb)) := by
        by_cases hd : sb ≥ de
        · rw [if_pos hd]
          refine ⟨_, rfl, Or.inl ⟨hd, ?_⟩⟩
          rw [Int.emod_eq_of_lt (by omega) (by omega)]; omega
        · rw [if_neg hd]; exact ⟨_, rfl, Or.inr ⟨by omega, rfl⟩⟩
      obtain ⟨sb', es, hsb'⟩ := hsb
      rw [es]
      obtain ⟨r, e, hr1, hr2⟩ := moveIn_spec b1 db sb' (se - sb).toNat (by omega) h0 (by omega) (by omega) (by omega)
      have key : ∀ j : Nat, db ≤ j → (j : Int) < db + (se - sb) → r[j]? = buf[(sb + (j - db)).toNat]? := by
        intro j a1 a2
        rw [hr2 j, if_pos (by omega), g1]
        rcases hsb' with ⟨hd, rfl⟩ | ⟨hd, rfl⟩
        · rw [if_pos (by omega)]; congr 1; omega
        · rw [if_neg (by omega)]; congr 1; omega
      refine ⟨r, e, by omega, ?_, ?_, ?_⟩
      · intro j hj
        by_cases a1 : (j : Int) < db
        · rw [hr2 j, if_neg (by omega), if_pos a1, g1, if_neg (by omega)]
        · by_cases a2 : (j : Int) < db + (se - sb)
          · rw [key j (by omega) a2, if_neg a1, if_pos a2]
          · rw [hr2 j, if_neg (by omega), if_neg a1, if_neg a2, g1, if_pos (by omega)]
      · intro j hj hj'
        rw [hr2 j, if_neg (by omega), g1, if_neg (by omega)]
      · intro j hj
        by_cases a : db ≤ j ∧ (j : Int) < db + (se - sb)
        · rw [key j a.1 a.2]; exact ⟨_, Or.inr ⟨by omega, by omega, rfl⟩⟩
        · rw [hr2 j, if_neg (by omega), g1]
          split
          · exact ⟨_, Or.inl ⟨by omega, rfl⟩⟩
          · exact ⟨j, Or.inl ⟨by omega, rfl⟩⟩
    · rw [if_neg hz]
      refine ⟨b1, rfl, l1, ?_, ?_, ?_⟩
      · intro j hj
        rw [g1]
        by_cases a1 : (j : Int) < db
        · rw [if_neg (by omega), if_pos a1]
        · rw [if_pos (by omega), if_neg a1, if_neg (by omega)]
      · intro j hj hj'
        rw [g1, if_neg (by omega)]
      · intro j hj
        rw [g1]
        split
        · exact ⟨_, Or.inl ⟨by omega, rfl⟩⟩
        · exact ⟨j, Or.inl ⟨by omega, rfl⟩⟩
  · rw [if_neg (by simp only [ne_eq, not_true_eq_false, false_or]; exact hc1)]
    have h4' := h4 (by omega)
    by_cases hc2 : de - db ≥ se - sb
    · rw [if_pos hc2]
      have s1 : ∃ b1, (if sb ≠ db then moveIn buf db sb (se - sb).toNat else some buf) = some b1 ∧
          b1.length = buf.length ∧ ∀ j : Nat, b1[j]? = if db ≤ j ∧ (j : Int) < db + (se - sb) then buf[(sb + (j - db)).toNat]? else buf[j]? := by
        by_cases hc : sb ≠ db
        · rw [if_pos hc]
          obtain ⟨r, e, hr1, hr2⟩ := moveIn_spec buf db sb (se - sb).toNat (by omega) (by omega) (by omega) (by omega) (by omega)
          refine ⟨r, e, hr1, fun j => ?_⟩
          rw [hr2 j]
          by_cases hj : db ≤ (j : Int) ∧ (j : Int) < db + (se - sb)
          · rw [if_pos hj, if_pos (by omega)]; congr 1; omega
          · rw [if_neg hj, if_neg (by omega)]
        · rw [if_neg hc]
          refine ⟨buf, rfl, rfl, fun j => ?_⟩
          split
          · congr 1; omega
          · rfl
      obtain ⟨b1, e1, l1, g1⟩ := s1
      rw [e1]
      simp only
      have s2 : ∃ r, (if de < destLen then moveIn b1 (db + (se - sb)) de (destLen - de).toNat else some b1) = some r ∧
          r.length = buf.length ∧ ∀ j : Nat, r[j]? = if db + (se - sb) ≤ j ∧ (j : Int) < destLen - (de - db) + (se - sb) then
            buf[((j : Int) - (se - sb) + (de - db)).toNat]? else b1[j]? := by
        by_cases hc : de < destLen
        · rw [if_pos hc]
          obtain ⟨r, e, hr1, hr2⟩ := moveIn_spec b1 (db + (se - sb)) de (destLen - de).toNat (by omega) (by omega) (by omega) (by omega) (by omega)
          refine ⟨r, e, by omega, fun j => ?_⟩
          rw [hr2 j]
          by_cases hj : db + (se - sb) ≤ (j : Int) ∧ (j : Int) < destLen - (de - db) + (se - sb)
          · rw [if_pos hj, if_pos (by omega), g1, if_neg (by omega)]; congr 1; omega
          · rw [if_neg hj, if_neg (by omega)]
        · rw [if_neg hc]
          refine ⟨b1, rfl, l1, fun j => ?_⟩
          rw [if_neg (by omega)]
      obtain ⟨r, e, lr, gr⟩ := s2
      refine ⟨r, e, lr, ?_, ?_, ?_⟩
      · intro j hj
        rw [gr]
        by_cases a1 : (j : Int) < db
        · rw [if_neg (by omega), if_pos a1, g1, if_neg (by omega)]
        · by_cases a2 : (j : Int) < db + (se - sb)
          · rw [if_neg (by omega), if_neg a1, if_pos a2, g1, if_pos (by omega)]
          · rw [if_pos (by omega), if_neg a1, if_neg a2]
      · intro j hj hj'
        rw [gr, if_neg (by omega), g1, if_neg (by omega)]
      · intro j hj
        rw [gr]
        split
        · exact ⟨_, Or.inl ⟨by omega, rfl⟩⟩
        · rw [g1]
          split
          · exact ⟨_, Or.inr ⟨by omega, by omega, rfl⟩⟩
          · exact ⟨j, Or.inl ⟨by omega, rfl⟩⟩
    · rw [if_neg hc2]
      have s1 : ∃ b1, (if de < destLen then moveIn buf (db + (se - sb)) de (destLen - de).toNat else some buf) = some b1 ∧
          b1.length = buf.length ∧ ∀ j : Nat, b1[j]? = if db + (se - sb) ≤ j ∧ (j : Int) < destLen - (de - db) + (se - sb) then
            buf[((j : Int) - (se - sb) + (de - db)).toNat]? else buf[j]? := by
        by_cases hc : de < destLen
        · rw [if_pos hc]
          obtain ⟨r, e, hr1, hr2⟩ := moveIn_spec buf (db + (se - sb)) de (destLen - de).toNat (by omega) (by omega) (by omega) (by omega) (by omega)
          refine ⟨r, e, by omega, fun j => ?_⟩
          rw [hr2 j]
          by_cases hj : db + (se - sb) ≤ (j : Int) ∧ (j : Int) < destLen - (de - db) + (se - sb)
          · rw [if_pos hj, if_pos (by omega)]; congr 1; omega
          · rw [if_neg hj, if_neg (by omega)]
        · rw [if_neg hc]
          refine ⟨buf, rfl, rfl, fun j => ?_⟩
          rw [if_neg (by omega)]
      obtain ⟨b1, e1, l1, g1⟩ := s1
      simp only [e1]
      generalize hmid : (if db + (se - sb) < se then db + (se - sb) else se) = mid
      have hm : sb < mid ∧ mid ≤ se ∧ mid ≤ db + (se - sb) ∧ (mid < se → mid = db + (se - sb)) := by
        subst hmid; split <;> omega
      rw [if_pos hm.1]
      obtain ⟨b2, e2, l2, g2⟩ := moveIn_spec b1 db sb (mid - sb).toNat (by omega) (by omega) (by omega) (by omega) (by omega)
      rw [e2]
      simp only
      have g2' : ∀ j : Nat, b2[j]? = if db ≤ j ∧ (j : Int) < db + (mid - sb) then buf[(sb + (j - db)).toNat]? else b1[j]? := by
        intro j
        rw [g2 j]
        by_cases hj : db ≤ (j : Int) ∧ (j : Int) < db + (mid - sb)
        · rw [if_pos hj, if_pos (by omega), g1, if_neg (by omega)]; congr 1; omega
        · rw [if_neg hj, if_neg (by omega)]
      have s3 : ∃ r, (if mid < se then moveIn b2 (db + mid - sb) (mid + (se - sb) - (de - db)) (se - mid).toNat else some b2) = some r ∧
          r.length = buf.length ∧ ∀ j : Nat, r[j]? = if db ≤ j ∧ (j : Int) < db + (se - sb) then buf[(sb + (j - db)).toNat]? else b1[j]? := by
        by_cases hc : mid < se
        · rw [if_pos hc]
          obtain ⟨r, e, hr1, hr2⟩ := moveIn_spec b2 (db + mid - sb) (mid + (se - sb) - (de - db)) (se - mid).toNat (by omega) (by omega) (by omega) (by omega) (by omega)
          refine ⟨r, e, by omega, fun j => ?_⟩
          rw [hr2 j]
          by_cases hj : db + mid - sb ≤ (j : Int) ∧ (j : Int) < db + (se - sb)
          · rw [if_pos (by omega), if_pos (by omega), g2', if_neg (by omega), g1, if_pos (by omega)]; congr 1; omega
          · rw [if_neg (by omega), g2']
            by_cases hj2 : db ≤ (j : Int) ∧ (j : Int) < db + (mid - sb)
            · rw [if_pos hj2, if_pos (by omega)]
            · rw [if_neg hj2, if_neg (by omega)]
        · rw [if_neg hc]
          refine ⟨b2, rfl, by omega, fun j => ?_⟩
          rw [g2', show mid = se by omega]
      obtain ⟨r, e, lr, gr⟩ := s3
      refine ⟨r, e, lr, ?_, ?_, ?_⟩
      · intro j hj
        rw [gr]
        by_cases a1 : (j : Int) < db
        · rw [if_neg (by omega), if_pos a1, g1, if_neg (by omega)]
        · by_cases a2 : (j : Int) < db + (se - sb)
          · rw [if_pos (by omega), if_neg a1, if_pos a2]
          · rw [if_neg (by omega), if_neg a1, if_neg a2, g1, if_pos (by omega)]
      · intro j hj hj'
        rw [gr, if_neg (by omega), g1, if_neg (by omega)]
      · intro j hj
        rw [gr]
        split
        · exact ⟨_, Or.inr ⟨by omega, by omega, rfl⟩⟩
        · rw [g1]
          split
          · exact ⟨_, Or.inl ⟨by omega, rfl⟩⟩
          · exact ⟨j, Or.inl ⟨by omega, rfl⟩⟩

end Verif.Arr
