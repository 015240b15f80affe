import Verif.Buf.Lemmas

namespace Verif.Buf

open Verif.Arr (fixIndex fixIndex_nonneg fixIndex_toNat)

theorem dataVolatile_ok (s : B) (d : List Nat) (hro : s.ro = false) (hd : s.data = some d) : dataVolatile s = .ok () s := by
  unfold dataVolatile
  simp [hro, hd]

theorem makeRoom_spec (env : Env) (s : B) (l : List Nat) (n : Nat) (h : Rep s l) (hro : s.ro = false) (hn : n < 4294967296)
    (hs : l.length + n ≤ 4294967232 ∨ 4294967296 ≤ l.length + n ∨ s.ext = true) :
    (∃ s' j, makeRoom env s n = .ok l.length s' ∧ j.length = n ∧ Rep s' (l ++ j) ∧ s'.ro = false ∧ s'.ext = s.ext ∧
      l.length + n < 4294967296 ∧ (s.ext = true → capacity s' = capacity s ∧ l.length + n ≤ capacity s)) ∨
    (makeRoom env s n = .raise .sizeLimit s ∧ 4294967296 ≤ l.length + n) ∨
    (makeRoom env s n = .raise .outOfMemory s ∧ l.length + n < 4294967296 ∧ s.ext = false ∧ ∃ c, env.mem c = false) ∨
    (makeRoom env s n = .raise .external s ∧ l.length + n < 4294967296 ∧ s.ext = true ∧ (l.length + n > capacity s ∨ 1024 > capacity s)) ∨
    (makeRoom env s n = .raise .empty s ∧ l = [] ∧ n = 0 ∧ s.ext = false) := by
  unfold makeRoom
  rw [if_neg (show ¬ s.ro = true by simp [hro])]
  simp only
  rw [h.size]
  have hlc := h.len_cap
  have h32 := h.cap32
  by_cases hlim : n > 4294967295 - l.length
  · right; left
    rw [if_pos hlim]
    exact ⟨rfl, by omega⟩
  rw [if_neg hlim]
  have hsum : (l.length + n) % 4294967296 = l.length + n := Nat.mod_eq_of_lt (by omega)
  rw [hsum]
  -- after the reserve, `s1` has room
  have fin : ∀ s1 : B, Rep s1 l → s1.ro = false → l.length + n ≤ capacity s1 →
      (∃ s' j, finishRoom s1 l.length (l.length + n) = .ok l.length s' ∧ j.length = n ∧ Rep s' (l ++ j) ∧ s'.ro = false ∧
        s'.ext = s1.ext ∧ capacity s' = capacity s1) ∨
      (finishRoom s1 l.length (l.length + n) = .raise .empty s1 ∧ s1.data = none ∧ l = [] ∧ n = 0) := by
    intro s1 h1 hro1 hc1
    obtain ⟨j, hj, hr⟩ := h1.setSize (l.length + n) hc1
    have hdd : s1.data = none ∨ ∃ d, s1.data = some d := by
      cases s1.data with
      | none => exact Or.inl rfl
      | some d => exact Or.inr ⟨d, rfl⟩
    rcases hdd with hd | ⟨d, hd⟩
    · right
      have hc0 : capacity s1 = 0 := by unfold capacity; rw [hd]
      have hl0 : l = [] := List.eq_nil_of_length_eq_zero (by omega)
      have hn0 : n = 0 := by omega
      subst hl0; subst hn0
      refine ⟨?_, hd, rfl, rfl⟩
      have e0 : ({ s1 with size := ([] : List Nat).length + 0 } : B) = s1 := by
        have := h1.size
        cases s1; simp only at this; subst this; rfl
      unfold finishRoom
      rw [e0]
      unfold dataVolatile
      simp [hro1, hd]
    · left
      have e0 := dataVolatile_ok { s1 with size := l.length + n } d hro1 hd
      unfold finishRoom
      rw [e0]
      refine ⟨_, j.take n, rfl, by rw [List.length_take]; omega, ?_, hro1, rfl, rfl⟩
      rw [List.take_append, List.take_of_length_le (by omega), Nat.add_sub_cancel_left] at hr
      exact hr
  generalize hq : (if l.length + n > capacity s * 2 % 4294967296 then l.length + n else capacity s * 2 % 4294967296) = q
  by_cases hoff : (if l.length + n > 1024 then l.length + n else 1024) > capacity s
  · rw [if_pos hoff]
    cases hx : s.ext with
    | true =>
      right; right; right; left
      rw [reserve_ext env s q hro hx]
      refine ⟨rfl, by omega, rfl, ?_⟩
      split at hoff <;> omega
    | false =>
      rw [hx] at hs
      simp only [Bool.false_eq_true, or_false] at hs
      have hm := h.cap hx
      have hq' : l.length + n ≤ alignUp q := by
        rw [← hq]
        by_cases hi : l.length + n > capacity s * 2 % 4294967296
        · rw [if_pos hi]; exact (alignUp_ok _ (by omega)).1
        · rw [if_neg hi]
          have := alignUp_ok (capacity s * 2 % 4294967296) (by omega)
          omega
      rcases reserve_spec env s l q h hro hx with ⟨s', e, h1, h2, h3, h4, h5⟩ | ⟨e, hmm⟩
      · rw [e]
        simp only
        rcases fin s' h1 h2 (by omega) with ⟨s2, j, f1, f2, f3, f4, f5, f6⟩ | ⟨f1, f2, f3, f4⟩
        · left
          exact ⟨s2, j, f1, f2, f3, f4, by rw [f5, h3], by omega, by simp⟩
        · right; right; right; right
          refine ⟨?_, f3, f4, trivial⟩
          rw [f1]
          have : s' = s := by
            have hq0 : q = 0 := by
              have hc0 : capacity s' = 0 := by unfold capacity; rw [f2]
              rw [hc0] at h4
              unfold alignUp at h4
              have : capacity s = 0 := by omega
              rw [this] at hq
              simp only [f3, f4, List.length_nil] at hq
              simpa using hq.symm
            have hdn : capacity s = 0 := by
              have hc0 : capacity s' = 0 := by unfold capacity; rw [f2]
              omega
            rw [hq0] at e
            unfold reserve at e
            rw [if_neg (show ¬ s.ro = true by simp [hro]), if_neg (show ¬ s.ext = true by simp [hx]),
              if_neg (show ¬ alignUp 0 > capacity s by unfold alignUp; omega)] at e
            injection e with _ e2
            exact e2.symm
          rw [this]
      · right; right; left
        rw [e]
        exact ⟨rfl, by omega, rfl, hmm⟩
  · rw [if_neg hoff]
    simp only
    have hcap : l.length + n ≤ capacity s ∧ 1024 ≤ capacity s := by split at hoff <;> omega
    rcases fin s h hro hcap.1 with ⟨s2, j, f1, f2, f3, f4, f5, f6⟩ | ⟨f1, f2, f3, f4⟩
    · left
      exact ⟨s2, j, f1, f2, f3, f4, f5, by omega, fun _ => ⟨f6, hcap.1⟩⟩
    · exfalso
      have hc0 : capacity s = 0 := by unfold capacity; rw [f2]
      omega

theorem fill_spec (s : B) (l : List Nat) (b e : Int) (v : Nat) (h : Rep s l) (hro : s.ro = false) :
    ∃ s', fill s b e v = .ok () s' ∧
      Rep s' (l.take (fixIndex b l.length).toNat ++
        List.replicate ((fixIndex e l.length).toNat - (fixIndex b l.length).toNat) v ++
        l.drop (max (fixIndex b l.length).toNat (fixIndex e l.length).toNat)) ∧
      s'.ro = false ∧ s'.ext = s.ext ∧ capacity s' = capacity s := by
  unfold fill
  rw [if_neg (show ¬ s.ro = true by simp [hro])]
  simp only
  rw [h.size]
  have hb := fixIndex_nonneg b l.length
  have he := fixIndex_nonneg e l.length
  generalize fixIndex b l.length = B at *
  generalize fixIndex e l.length = E at *
  by_cases hlt : B < E
  · rw [if_pos hlt]
    obtain ⟨d, d', h1, h2, h3, h4⟩ := h.put B.toNat (List.replicate (E - B).toNat v)
      (by rw [List.length_replicate]; omega) (by intro hn; have := congrArg List.length hn; simp at this; omega)
    rw [h1]
    simp only [h2]
    refine ⟨_, rfl, ?_, hro, rfl, ?_⟩
    · rw [List.length_replicate, show B.toNat + (E - B).toNat = max B.toNat E.toNat by omega,
        show (E - B).toNat = E.toNat - B.toNat by omega, h.size] at h3
      exact h3
    · unfold capacity; simp only [h1]; exact h4
  · rw [if_neg hlt]
    refine ⟨s, rfl, ?_, hro, rfl, rfl⟩
    rw [show E.toNat - B.toNat = 0 by omega, show max B.toNat E.toNat = B.toNat by omega]
    simp only [List.replicate_zero, List.append_nil, List.take_append_drop]
    exact h

/-- What `copy` does, in terms of the bytes `m` of the source. -/
theorem copy_spec (s : B) (l : List Nat) (db : Int) (src : Option B) (m : List Nat) (sb se : Int) (h : Rep s l) (hro : s.ro = false)
    (hm : Rep (src.getD s) m) :
    ∃ s', copy s db src sb se = .ok () s' ∧
      Rep s' (l.take (fixIndex db l.length).toNat ++
        ((m.drop (fixIndex sb m.length).toNat).take ((fixIndex se m.length).toNat - (fixIndex sb m.length).toNat)).take (l.length - (fixIndex db l.length).toNat) ++
        l.drop ((fixIndex db l.length).toNat + ((fixIndex se m.length).toNat - (fixIndex sb m.length).toNat))) ∧
      s'.ro = false ∧ s'.ext = s.ext ∧ capacity s' = capacity s := by
  unfold copy
  rw [if_neg (show ¬ s.ro = true by simp [hro])]
  simp only
  rw [h.size, hm.size]
  have hd := fixIndex_nonneg db l.length
  have hb := fixIndex_nonneg sb m.length
  have he := fixIndex_nonneg se m.length
  generalize fixIndex db l.length = D at *
  generalize fixIndex sb m.length = B at *
  generalize fixIndex se m.length = E at *
  by_cases hlt : B < E ∧ D < l.length
  · rw [if_pos hlt]
    generalize hsz : (if E - B < ↑l.length - D then E - B else ↑l.length - D).toNat = n
    have hn : n = min (E - B).toNat (l.length - D.toNat) := by rw [← hsz]; split <;> omega
    obtain ⟨sd, g1, g2⟩ := hm.get B.toNat n (by omega) (by omega)
    have hbl : ((m.drop B.toNat).take n).length = n := by rw [List.length_take, List.length_drop]; omega
    obtain ⟨d, d', h1, h2, h3, h4⟩ := h.put D.toNat ((m.drop B.toNat).take n)
      (by rw [hbl]; omega) (by intro hn'; rw [hn'] at hbl; simp at hbl; omega)
    rw [h1, g1]
    simp only [g2, h2]
    refine ⟨_, rfl, ?_, hro, rfl, ?_⟩
    · rw [hbl, h.size] at h3
      rw [List.take_take, show min (l.length - D.toNat) (E.toNat - B.toNat) = n by omega]
      by_cases hfit : n = (E - B).toNat
      · rw [show D.toNat + (E.toNat - B.toNat) = D.toNat + n by omega]; exact h3
      · rw [show List.drop (D.toNat + n) l = [] from List.drop_of_length_le (by omega)] at h3
        rw [show List.drop (D.toNat + (E.toNat - B.toNat)) l = [] from List.drop_of_length_le (by omega)]
        exact h3
    · unfold capacity; simp only [h1]; exact h4
  · rw [if_neg hlt]
    refine ⟨s, rfl, ?_, hro, rfl, rfl⟩
    by_cases hBE : B < E
    · have : D.toNat = l.length := by omega
      rw [this, List.take_length, Nat.sub_self, List.take_zero, List.drop_of_length_le (by omega)]
      simpa using h
    · rw [show E.toNat - B.toNat = 0 by omega]
      simpa using h

theorem slice_spec (env : Env) (s : B) (l : List Nat) (b e : Int) (h : Rep s l) (hlen : l.length ≤ 4294967232 ∨
      (fixIndex e l.length).toNat - (fixIndex b l.length).toNat ≤ 4294967232) :
    (∃ r, slice env s b e = .ok r s ∧ r.ro = false ∧ r.ext = false ∧
      Rep r ((l.drop (fixIndex b l.length).toNat).take ((fixIndex e l.length).toNat - (fixIndex b l.length).toNat))) ∨
    (slice env s b e = .raise .outOfMemory s ∧ ∃ c, env.mem c = false) := by
  unfold slice
  rw [h.size]
  by_cases hz : l.length ≠ 0
  · rw [if_pos hz]
    have hb := fixIndex_nonneg b l.length
    have he := fixIndex_nonneg e l.length
    simp only
    generalize fixIndex b l.length = B at *
    generalize fixIndex e l.length = E at *
    generalize hn : ((if E < B then B else E) - B).toNat = n
    have hn' : n = E.toNat - B.toNat := by rw [← hn]; split <;> omega
    rw [← hn'] at *
    rcases newBuffer_spec env n (by omega) with ⟨r, j, e1, e2, e3, e4, e5⟩ | ⟨e1, hm⟩
    · left
      rw [e1]
      simp only
      by_cases hn0 : n ≠ 0
      · rw [if_pos hn0]
        obtain ⟨sd, g1, g2⟩ := h.get B.toNat n (by omega) (by omega)
        have hbl : ((l.drop B.toNat).take n).length = n := by rw [List.length_take, List.length_drop]; omega
        obtain ⟨d, d', h1, h2, h3, h4⟩ := e2.put 0 ((l.drop B.toNat).take n)
          (by rw [hbl]; omega) (by intro hx; rw [hx] at hbl; simp at hbl; omega)
        rw [h1, g1]
        simp only [g2, h2]
        refine ⟨_, rfl, e4, e5, ?_⟩
        rw [hbl, show List.drop (0 + n) j = [] from List.drop_of_length_le (by omega)] at h3
        simpa using h3
      · rw [if_neg hn0]
        refine ⟨_, rfl, e4, e5, ?_⟩
        have hj : j = [] := List.eq_nil_of_length_eq_zero (by omega)
        rw [show n = 0 by omega, List.take_zero]
        rw [hj] at e2; exact e2
    · right
      rw [e1]
      exact ⟨rfl, hm⟩
  · rw [if_neg hz]
    have hl : l = [] := List.eq_nil_of_length_eq_zero (by omega)
    subst hl
    rcases newBuffer_spec env 0 (by omega) with ⟨r, j, e1, e2, e3, e4, e5⟩ | ⟨e1, hm⟩
    · left
      rw [e1]
      have hj : j = [] := List.eq_nil_of_length_eq_zero (by omega)
      rw [hj] at e2
      exact ⟨_, rfl, e4, e5, by simpa using e2⟩
    · right
      rw [e1]
      exact ⟨rfl, hm⟩

theorem baseResize_spec (env : Env) (s : B) (l : List Nat) (n v : Int) (h : Rep s l) (hro : s.ro = false)
    (h1 : 0 ≤ n) (h2 : n ≤ 2147483647) (h3 : 0 ≤ v) (h4 : v ≤ 255) :
    (∃ s', baseResize env s n v = .ok () s' ∧ Rep s' (l.take n.toNat ++ List.replicate (n.toNat - l.length) v.toNat) ∧ s'.ro = false ∧
      s'.ext = s.ext ∧ (s.ext = true → capacity s' = capacity s ∧ n.toNat ≤ capacity s)) ∨
    (baseResize env s n v = .raise .outOfMemory s ∧ n > l.length ∧ s.ext = false ∧ ∃ c, env.mem c = false) ∨
    (baseResize env s n v = .raise .external s ∧ s.ext = true ∧ n.toNat > capacity s) := by
  unfold baseResize
  simp only
  rw [if_neg (show ¬ (n < 0 ∨ n > 2147483647) by omega), if_neg (show ¬ (v < 0 ∨ v > 255) by omega)]
  rcases resize_spec env s l n.toNat h hro (by omega) with ⟨s', j, e, hj, hr, f1, f2, f3⟩ | ⟨e, f1, f2, hm⟩ | ⟨e, f1, f2⟩
  · left
    rw [e]
    simp only
    rw [h.size]
    by_cases hgt : n > l.length
    · rw [if_pos hgt]
      have hlen : ((l ++ j).take n.toNat).length = n.toNat := by rw [List.length_take, List.length_append]; omega
      obtain ⟨d, d', g1, g2, g3, g4⟩ := hr.put l.length (List.replicate (n.toNat - l.length) v.toNat)
        (by rw [hlen, List.length_replicate]; omega) (by intro hx; have := congrArg List.length hx; simp at this; omega)
      rw [dataVolatile_ok s' d f1 g1]
      simp only [g1, g2]
      refine ⟨_, rfl, ?_, f1, f2, ?_⟩
      · rw [List.drop_of_length_le (by rw [hlen, List.length_replicate]; omega), List.append_nil, List.take_take,
          show min l.length n.toNat = l.length by omega, List.take_left] at g3
        rw [List.take_of_length_le (by omega)]
        exact g3
      · intro hx
        obtain ⟨c1, c2⟩ := f3 hx
        refine ⟨?_, c2⟩
        rw [← c1]
        unfold capacity; simp only [g1]; exact g4
    · rw [if_neg hgt]
      refine ⟨s', rfl, ?_, f1, f2, f3⟩
      rw [show n.toNat - l.length = 0 by omega]
      rw [List.take_append_of_le_length (by omega)] at hr
      simpa using hr
  · right; left
    rw [e]
    exact ⟨rfl, by omega, f2, hm⟩
  · right; right
    rw [e]
    exact ⟨rfl, f1, f2⟩

end Verif.Buf
