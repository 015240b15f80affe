import Verif.Arr.Lemmas

/-! Slice, fill, push and the moves of insert. -/
namespace Verif.Arr

variable {V : Type}

theorem fixIndex_nonneg (i : Int) (n : Nat) : 0 ≤ fixIndex i n ∧ fixIndex i n ≤ n := by
  unfold fixIndex; simp only; repeat' split
  all_goals omega

theorem fixIndex_toNat (i : Int) (n : Nat) : (fixIndex i n).toNat = if i < 0 then (i + n).toNat else min i.toNat n := by
  unfold fixIndex; simp only; repeat' split
  all_goals omega

theorem sliceLoop_spec (n : Nat) : ∀ (l : List V) (tail : List (Cell V)) (i : Nat), i + n ≤ l.length →
    sliceLoop n (l.map .val ++ tail) i = some ((l.drop i).take n) := by
  induction n with
  | zero => intro l tail i _; simp [sliceLoop]
  | succ n ih =>
    intro l tail i h
    have hi : i < l.length := by omega
    have e : (l.map Cell.val ++ tail)[i]? = some (.val l[i]) := by
      rw [List.getElem?_append_left (by simpa using hi)]; simp [List.getElem?_eq_getElem hi]
    rw [sliceLoop, e]
    simp only
    rw [ih l tail (i + 1) (by omega)]
    rw [List.drop_eq_getElem_cons hi, List.take_succ_cons]
    rfl

theorem slice_spec (mem : Nat → Bool) (s : A V) (l : List V) (b e : Int) (h : Rep s l) :
    (∃ r, slice mem s b e = .ok r s ∧ r.ro = false ∧
      Rep r ((l.drop (fixIndex b l.length).toNat).take ((fixIndex e l.length).toNat - (fixIndex b l.length).toNat))) ∨
    (slice mem s b e = .raise .outOfMemory s ∧ Refused mem ((fixIndex e l.length).toNat - (fixIndex b l.length).toNat)) := by
  unfold slice
  by_cases h0 : mem 0 = false
  · right; rw [if_pos h0]; exact ⟨rfl, Or.inl ⟨0, h0⟩⟩
  rw [if_neg h0]
  have hs := h.1
  by_cases hz : s.size = 0
  · left
    rw [if_pos hz]
    have : l = [] := List.length_eq_zero_iff.mp (by omega)
    subst this
    exact ⟨_, rfl, rfl, by simp, by simp⟩
  rw [if_neg hz, hs]
  have hb := fixIndex_nonneg b l.length
  have he := fixIndex_nonneg e l.length
  simp only
  have hn : ((if fixIndex e l.length < fixIndex b l.length then fixIndex b l.length else fixIndex e l.length) - fixIndex b l.length).toNat
      = (fixIndex e l.length).toNat - (fixIndex b l.length).toNat := by split <;> omega
  rw [hn]
  generalize hnn : (fixIndex e l.length).toNat - (fixIndex b l.length).toNat = n
  by_cases hz' : n = 0
  · left; rw [if_pos hz', hz']
    exact ⟨_, rfl, rfl, by simp, by simp⟩
  rw [if_neg hz']
  unfold allocBuffer
  by_cases hm : n < maxSize ∧ mem n = true
  · left
    rw [if_pos hm]
    have hg := grant_ge n (by omega)
    obtain ⟨_, h2⟩ := h
    cases hd : s.data with
    | none => rw [hd] at h2; simp only at h2; subst h2; simp at hs; omega
    | some sb =>
      rw [hd] at h2; obtain ⟨k, eb, _, _⟩ := h2
      simp only
      rw [eb, sliceLoop_spec n l _ _ (by omega)]
      have hlen : ((l.drop (fixIndex b l.length).toNat).take n).length = n := by
        rw [List.length_take, List.length_drop]; omega
      refine ⟨_, rfl, rfl, rfl, grant n - n, ?_, ?_, ?_⟩
      · rw [hlen, List.length_replicate]
      · simp only [List.length_append, List.length_map, List.length_replicate, hlen]; omega
      · simp only [List.length_append, List.length_map, List.length_replicate, hlen]; omega
  · right; rw [if_neg hm]; exact ⟨rfl, .of mem n n hm (by omega)⟩

theorem fillLoop_spec (n : Nat) : ∀ (pre mid : List V) (tail : List (Cell V)) (v : V), mid.length = n →
    fillLoop n ((pre ++ mid).map .val ++ tail) pre.length v = some ((pre ++ List.replicate n v).map .val ++ tail) := by
  induction n with
  | zero => intro pre mid tail v h; rw [List.length_eq_zero_iff.mp h]; simp [fillLoop]
  | succ n ih =>
    intro pre mid tail v h
    cases mid with
    | nil => simp at h
    | cons m mid =>
      have e1 : ((pre ++ m :: mid).map Cell.val ++ tail)[pre.length]? = some (.val m) := by simp
      have e2 : ((pre ++ m :: mid).map Cell.val ++ tail).set pre.length (.val v) = ((pre ++ [v]) ++ mid).map .val ++ tail := by
        simp [List.set_append]
      rw [fillLoop, e1]
      simp only
      rw [e2]
      have := ih (pre ++ [v]) mid tail v (by simpa using h)
      rw [List.length_append, List.length_singleton] at this
      rw [this, List.append_assoc, List.singleton_append, ← List.replicate_succ]

theorem fill_spec (s : A V) (l : List V) (b e : Int) (v : V) (h : Rep s l) (hro : s.ro = false) :
    ∃ s', fill s b e v = .ok () s' ∧ s'.ro = false ∧
      Rep s' (l.take (fixIndex b l.length).toNat ++ List.replicate ((fixIndex e l.length).toNat - (fixIndex b l.length).toNat) v
        ++ l.drop (max (fixIndex b l.length).toNat (fixIndex e l.length).toNat)) := by
  have hb := fixIndex_nonneg b l.length
  have he := fixIndex_nonneg e l.length
  unfold fill
  rw [hro, h.1]
  simp only [Bool.false_eq_true, if_false]
  by_cases hlt : fixIndex b l.length < fixIndex e l.length
  · rw [if_pos hlt]
    generalize hB : (fixIndex b l.length).toNat = B
    generalize hE : (fixIndex e l.length).toNat = E
    have hbe : B < E ∧ E ≤ l.length := by omega
    rw [show (fixIndex e l.length - fixIndex b l.length).toNat = E - B by omega]
    obtain ⟨h1, h2⟩ := h
    cases hd : s.data with
    | none => rw [hd] at h2; simp only at h2; subst h2; simp at hbe; omega
    | some c =>
      rw [hd] at h2; obtain ⟨k, eb, hp, hq⟩ := h2
      simp only
      have key := fillLoop_spec (E - B) (l.take B) ((l.drop B).take (E - B)) ((l.drop E).map .val ++ List.replicate k .tomb) v (by
        rw [List.length_take, List.length_drop]; omega)
      have hl : l.take B ++ (l.drop B).take (E - B) ++ l.drop E = l := by
        have e1 : l.drop E = (l.drop B).drop (E - B) := by rw [List.drop_drop]; congr 1; omega
        rw [e1, List.append_assoc, List.take_append_drop, List.take_append_drop]
      rw [← List.append_assoc, ← List.map_append, hl, ← eb, List.length_take, Nat.min_eq_left (by omega)] at key
      rw [key]
      refine ⟨_, rfl, rfl, ?_, k, ?_, ?_, ?_⟩
      · simp only [List.length_append, List.length_take, List.length_replicate, List.length_drop]; omega
      · rw [Nat.max_eq_right (by omega), ← List.append_assoc, ← List.map_append]
      · simp only [List.length_append, List.length_map, List.length_take, List.length_replicate, List.length_drop]; 
        have := congrArg List.length eb
        simp only [List.length_append, List.length_map, List.length_replicate] at this; omega
      · have := congrArg List.length eb
        simp only [List.length_append, List.length_map, List.length_take, List.length_replicate, List.length_drop] at this ⊢; omega
  · rw [if_neg hlt]
    refine ⟨s, rfl, hro, ?_⟩
    rw [Nat.max_eq_left (by omega), show (fixIndex e l.length).toNat - (fixIndex b l.length).toNat = 0 by omega]
    simpa using h

theorem push_spec (mem : Nat → Bool) (s : A V) (l : List V) (v : V) (h : Rep s l) (hro : s.ro = false) :
    (∃ s', push mem s v = .ok l.length s' ∧ Rep s' (l ++ [v]) ∧ s'.ro = false) ∨
    (push mem s v = .raise .outOfMemory s ∧ capacity s ≤ l.length ∧ Refused mem (l.length + 1)) := by
  have hin : ∀ s1 : A V, Rep s1 l → l.length < capacity s1 → s1.ro = false →
      ∃ s', (match s1.data with
        | none => (Out.bad : Out V Nat)
        | some b =>
          match b[l.length]? with
          | none => .bad
          | some .closed => .bad
          | some _ => .ok l.length { s1 with size := l.length + 1, data := some (b.set l.length (.val v)) }) = .ok l.length s' ∧
        Rep s' (l ++ [v]) ∧ s'.ro = false := by
    intro s1 h1 hc hr
    obtain ⟨_, h2⟩ := h1
    unfold capacity at hc
    cases hd : s1.data with
    | none => rw [hd] at hc; simp at hc
    | some b =>
      rw [hd] at h2 hc
      obtain ⟨k, e, hp, hq⟩ := h2
      simp only at hc ⊢
      have hk : b.length = l.length + k := by
        have := congrArg List.length e; simpa using this
      obtain ⟨k, rfl⟩ : ∃ k', k = k' + 1 := ⟨k - 1, by omega⟩
      have g : b[l.length]? = some .tomb := by
        rw [e, List.getElem?_append_right (by simp)]; simp [List.replicate_succ]
      rw [g]
      refine ⟨_, rfl, ⟨by simp, k, ?_, by simp; omega, by simp; omega⟩, hr⟩
      rw [e, List.set_append_right _ _ (by simp)]
      simp [List.replicate_succ]
  unfold push
  rw [hro]
  simp only [Bool.false_eq_true, if_false]
  rw [pushLoop]
  simp only [h.1]
  by_cases hc : l.length ≥ capacity s
  · rw [if_pos hc]
    generalize hcap : (if capacity s * 2 % 4294967296 > l.length + 1 then capacity s * 2 % 4294967296 else l.length + 1) = c
    have hcn : l.length + 1 ≤ c := by subst hcap; split <;> omega
    rcases reserve_spec mem s l c h hro with ⟨s', e, hr, hg, hr'⟩ | ⟨e, _, hn⟩
    · left
      rw [e]; simp only
      rw [pushLoop]
      simp only [hr.1]
      rw [if_neg (by omega)]
      simp only
      exact hin s' hr (by omega) (by rw [hr', hro])
    · right; rw [e]; exact ⟨rfl, hc, .of mem c _ hn (by subst hcap; split <;> omega)⟩
  · left
    rw [if_neg hc]
    simp only
    exact hin s h (by omega) hro

theorem read_spec (s : A V) (l : List V) (idx : Int) (h : Rep s l) :
    read s idx = match l[bufIdx idx l.length]? with
      | some v => .ok v s
      | none => .raise .badIndex s := by
  unfold read
  rw [h.1]
  by_cases hi : bufIdx idx l.length < l.length
  · obtain ⟨b, e, hb⟩ := h.cells _ hi
    simp only
    rw [if_pos hi, e, List.getElem?_eq_getElem hi]
    simp only [hb]
  · simp only
    rw [if_neg hi, List.getElem?_eq_none (by omega)]

theorem pop_spec (mem : Nat → Bool) (s : A V) (l : List V) (void : V) (h : Rep s l) (hro : s.ro = false) :
    (l = [] ∧ pop mem void s = .raise .empty s) ∨
    (∃ init v s', l = init ++ [v] ∧ pop mem void s = .ok v s' ∧ Rep s' init ∧ s'.ro = false) := by
  unfold pop
  rw [hro, h.1]
  simp only [Bool.false_eq_true, if_false]
  by_cases hz : l = []
  · left; subst hz; exact ⟨rfl, rfl⟩
  · right
    have hp : 0 < l.length := List.length_pos_iff.mpr hz
    have hle := h.size_lt
    unfold maxSize at hle
    rw [if_neg (by omega)]
    rw [read_spec s l ((l.length : Int) - 1) h]
    have hb : bufIdx ((l.length : Int) - 1) l.length = l.length - 1 := by
      rw [(bufIdx_eq _ _ (by omega) (by omega) h.size_lt).1 (by omega)]; omega
    rw [hb, List.getElem?_eq_getElem (by omega)]
    simp only
    have hc := h.capacity_ge
    rcases resize_spec mem s l void (l.length - 1) h hro with ⟨s', e, hr, hr', _⟩ | ⟨_, hlt, _⟩
    · rw [e]; simp only
      refine ⟨l.take (l.length - 1), l[l.length - 1], s', ?_, rfl, ?_, hr'⟩
      · have := List.take_append_getElem (l := l) (i := l.length - 1) (by omega)
        rw [this, List.take_of_length_le (by omega)]
      · rw [show l.length - 1 - l.length = 0 by omega] at hr
        simpa using hr
    · omega

/-! ### `kos_atomic_move_ptr` is memmove -/

/-- `r` is `b` after the block `[s, s + n)` has been copied to `[d, d + n)`. -/
def Moved {α : Type} (b src : List α) (d s n : Nat) (r : List α) : Prop :=
  r.length = b.length ∧ ∀ j, r[j]? = if d ≤ j ∧ j < d + n then src[s + (j - d)]? else b[j]?

theorem fwd_spec {α : Type} (n : Nat) : ∀ (b : List α) (d s : Nat), (d < s ∨ s + n ≤ d ∨ d + n ≤ s) → d + n ≤ b.length → s + n ≤ b.length →
    ∃ r, fwd n b d s = some r ∧ Moved b b d s n r := by
  induction n with
  | zero =>
    intro b d s _ _ _
    refine ⟨b, rfl, rfl, fun j => ?_⟩
    rw [if_neg (by omega)]
  | succ n ih =>
    intro b d s hd hb hs
    have hs' : s < b.length := by omega
    rw [fwd, List.getElem?_eq_getElem hs']
    simp only
    rw [if_pos (by omega)]
    obtain ⟨r, e, h1, h2⟩ := ih (b.set d b[s]) (d + 1) (s + 1) (by omega) (by simp; omega) (by simp; omega)
    refine ⟨r, e, by simpa using h1, fun j => ?_⟩
    rw [h2 j]
    by_cases hj : d + 1 ≤ j ∧ j < d + 1 + n
    · rw [if_pos hj, if_pos (by omega), List.getElem?_set_ne (by omega)]
      congr 1; omega
    · rw [if_neg hj]
      by_cases hj' : j = d
      · subst hj'
        rw [if_pos (by omega), List.getElem?_set_self (by omega), Nat.sub_self, Nat.add_zero, List.getElem?_eq_getElem hs']
      · rw [if_neg (by omega), List.getElem?_set_ne (by omega)]

theorem bwd_spec {α : Type} (n : Nat) : ∀ (b : List α) (d s : Nat), s ≤ d → d + n ≤ b.length →
    ∃ r, bwd n b d s = some r ∧ Moved b b d s n r := by
  induction n with
  | zero =>
    intro b d s _ _
    refine ⟨b, rfl, rfl, fun j => ?_⟩
    rw [if_neg (by omega)]
  | succ n ih =>
    intro b d s hd hb
    have hs' : s + n < b.length := by omega
    rw [bwd, List.getElem?_eq_getElem hs']
    simp only
    rw [if_pos (by omega)]
    obtain ⟨r, e, h1, h2⟩ := ih (b.set (d + n) b[s + n]) d s hd (by simp; omega)
    refine ⟨r, e, by simpa using h1, fun j => ?_⟩
    rw [h2 j]
    by_cases hj : d ≤ j ∧ j < d + n
    · rw [if_pos hj, if_pos (by omega), List.getElem?_set_ne (by omega)]
    · rw [if_neg hj]
      by_cases hj' : j = d + n
      · subst hj'
        rw [if_pos (by omega), List.getElem?_set_self (by omega), Nat.add_sub_cancel_left, List.getElem?_eq_getElem hs']
      · rw [if_neg (by omega), List.getElem?_set_ne (by omega)]

theorem fwdFrom_spec {α : Type} (src : List α) (n : Nat) : ∀ (b : List α) (d s : Nat), d + n ≤ b.length → s + n ≤ src.length →
    ∃ r, fwdFrom n b src d s = some r ∧ Moved b src d s n r := by
  induction n with
  | zero =>
    intro b d s _ _
    refine ⟨b, rfl, rfl, fun j => ?_⟩
    rw [if_neg (by omega)]
  | succ n ih =>
    intro b d s hb hs
    have hs' : s < src.length := by omega
    rw [fwdFrom, List.getElem?_eq_getElem hs']
    simp only
    rw [if_pos (by omega)]
    obtain ⟨r, e, h1, h2⟩ := ih (b.set d src[s]) (d + 1) (s + 1) (by simp; omega) (by omega)
    refine ⟨r, e, by simpa using h1, fun j => ?_⟩
    rw [h2 j]
    by_cases hj : d + 1 ≤ j ∧ j < d + 1 + n
    · rw [if_pos hj, if_pos (by omega)]
      congr 1; omega
    · rw [if_neg hj]
      by_cases hj' : j = d
      · subst hj'
        rw [if_pos (by omega), List.getElem?_set_self (by omega), Nat.sub_self, Nat.add_zero, List.getElem?_eq_getElem hs']
      · rw [if_neg (by omega), List.getElem?_set_ne (by omega)]

theorem moveIn_spec {α : Type} (b : List α) (d s : Int) (n : Nat) (hn : 0 < n) (hd : 0 ≤ d) (hs : 0 ≤ s)
    (h1 : d + n ≤ b.length) (h2 : s + n ≤ b.length) :
    ∃ r, moveIn b d s n = some r ∧ Moved b b d.toNat s.toNat n r := by
  unfold moveIn
  by_cases he : s = d
  · rw [if_pos he]
    refine ⟨b, rfl, rfl, fun j => ?_⟩
    split
    · congr 1; omega
    · rfl
  rw [if_neg he, if_neg (by omega)]
  by_cases hb : s < d ∧ s + n > d
  · rw [if_pos hb, if_neg (by omega)]
    exact bwd_spec n b _ _ (by omega) (by omega)
  · rw [if_neg hb, if_neg (by omega)]
    exact fwd_spec n b _ _ (by omega) (by omega) (by omega)

theorem moveFrom_spec {α : Type} (b src : List α) (d s : Int) (n : Nat) (hn : 0 < n) (hd : 0 ≤ d) (hs : 0 ≤ s)
    (h1 : d + n ≤ b.length) (h2 : s + n ≤ src.length) :
    ∃ r, moveFrom b src d s n = some r ∧ Moved b src d.toNat s.toNat n r := by
  unfold moveFrom
  rw [if_neg (by omega), if_neg (by omega)]
  exact fwdFrom_spec src n b _ _ (by omega) (by omega)

end Verif.Arr
