import Verif.Re.Class

/-!
# What `add_class_range` and `match_class` do

Proofs for `Verif/Re/Class.lean`: adding a range gives the union, provided the
last code of the new range is not in the class yet, and the binary search finds
exactly the codes in the ranges.
-/

namespace Verif.Re

/-- A code is in one of the ranges. -/
def Listed (rs : List Range) (c : Nat) : Prop := ∃ r ∈ rs, r.1 ≤ c ∧ c ≤ r.2

/-- The ranges are increasing and do not touch. -/
def Sep (rs : List Range) : Prop :=
  List.Pairwise (fun x y : Range => x.2 + 1 < y.1) rs ∧ ∀ r ∈ rs, r.1 ≤ r.2

theorem rangeAt_append_left {L R : List Range} {i : Nat} (h : i < L.length) :
    rangeAt (L ++ R) i = rangeAt L i := by
  unfold rangeAt
  simp [List.getElem?_append_left h]

theorem rangeAt_append_right {L R : List Range} (i : Nat) :
    rangeAt (L ++ R) (L.length + i) = rangeAt R i := by
  unfold rangeAt
  simp [List.getElem?_append_right]

theorem rangeAt_mem {rs : List Range} {i : Nat} (h : i < rs.length) : rangeAt rs i ∈ rs := by
  unfold rangeAt
  simp [List.getElem?_eq_getElem h]

theorem mem_rangeAt {rs : List Range} {r : Range} (h : r ∈ rs) : ∃ i, i < rs.length ∧ rangeAt rs i = r := by
  obtain ⟨i, hi, he⟩ := List.mem_iff_getElem.1 h
  exact ⟨i, hi, by unfold rangeAt; simp [List.getElem?_eq_getElem hi, he]⟩

theorem Sep.lt {rs : List Range} (h : Sep rs) {i j : Nat} (hij : i < j) (hj : j < rs.length) :
    (rangeAt rs i).2 + 1 < (rangeAt rs j).1 := by
  have hp := List.pairwise_iff_getElem.1 h.1 i j (by omega) hj hij
  unfold rangeAt
  simpa [List.getElem?_eq_getElem hj, List.getElem?_eq_getElem (show i < rs.length by omega)] using hp

theorem Sep.le {rs : List Range} (h : Sep rs) {i : Nat} (hi : i < rs.length) :
    (rangeAt rs i).1 ≤ (rangeAt rs i).2 := h.2 _ (rangeAt_mem hi)

theorem Sep.start_lt {rs : List Range} (h : Sep rs) {i j : Nat} (hij : i < j) (hj : j < rs.length) :
    (rangeAt rs i).1 < (rangeAt rs j).1 := by
  have := h.lt hij hj
  have := h.le (i := i) (by omega)
  omega

theorem search_spec {rs : List Range} (hs : Sep rs) (b : Nat) : ∀ (fuel lo hi : Nat), hi - lo < fuel → lo ≤ hi →
    hi ≤ rs.length → (∀ j, j < lo → (rangeAt rs j).1 < b) → (∀ j, hi ≤ j → j < rs.length → b ≤ (rangeAt rs j).1) →
    ∃ i, search rs b fuel lo hi = (i, i) ∧ i ≤ rs.length ∧ (∀ j, j < i → (rangeAt rs j).1 < b) ∧
      (∀ j, i ≤ j → j < rs.length → b ≤ (rangeAt rs j).1)
  | 0, _, _, h, _, _, _, _ => by omega
  | fuel + 1, lo, hi, h, hle, hn, hl, hr => by
    unfold search
    by_cases hlt : lo < hi
    · simp only [if_pos hlt]
      have hm : (lo + hi) / 2 < hi := by omega
      have hm' : lo ≤ (lo + hi) / 2 := by omega
      by_cases he : b = (rangeAt rs ((lo + hi) / 2)).1
      · rw [if_pos he]
        refine ⟨_, rfl, by omega, fun j hj => ?_, fun j hj hj' => ?_⟩
        · rw [he]; exact hs.start_lt hj (by omega)
        · rw [he]
          by_cases hje : j = (lo + hi) / 2
          · rw [hje]; exact Nat.le_refl _
          · exact Nat.le_of_lt (hs.start_lt (by omega) hj')
      · rw [if_neg he]
        by_cases hb : b < (rangeAt rs ((lo + hi) / 2)).1
        · rw [if_pos hb]
          refine search_spec hs b fuel lo _ (by omega) hm' (by omega) hl (fun j hj hj' => ?_)
          by_cases hje : j = (lo + hi) / 2
          · rw [hje]; omega
          · have := hs.start_lt (i := (lo + hi) / 2) (j := j) (by omega) hj'; omega
        · rw [if_neg hb]
          refine search_spec hs b fuel _ hi (by omega) (by omega) hn (fun j hj => ?_) hr
          by_cases hje : j = (lo + hi) / 2
          · rw [hje]; omega
          · have := hs.start_lt (i := j) (j := (lo + hi) / 2) (by omega) (by omega); omega
    · simp only [if_neg hlt]
      have : lo = hi := by omega
      subst this
      exact ⟨lo, rfl, hn, hl, hr⟩

theorem scan_spec (e : Nat) : ∀ (R P : List Range) (fuel : Nat), R.length ≤ fuel →
    scan (P ++ R) e fuel P.length = P.length + (R.takeWhile fun r => decide (r.1 ≤ e + 1)).length
  | [], P, 0, _ => by simp [scan]
  | [], P, fuel + 1, _ => by simp [scan]
  | r :: R, P, 0, h => by simp at h
  | r :: R, P, fuel + 1, h => by
    unfold scan
    have hr : rangeAt (P ++ r :: R) P.length = r := by
      have := rangeAt_append_right (L := P) (R := r :: R) 0
      simp [rangeAt]
    have hlt : P.length < (P ++ r :: R).length := by simp
    rw [if_pos hlt, hr]
    by_cases hb : e + 1 < r.1
    · rw [if_pos hb, List.takeWhile_cons_of_neg (by simpa using hb)]; rfl
    · rw [if_neg hb, List.takeWhile_cons_of_pos (by simpa using Nat.le_of_not_lt hb)]
      have := scan_spec e R (P ++ [r]) fuel (by simp at h; omega)
      simp only [List.append_assoc, List.singleton_append, List.length_append, List.length_singleton] at this
      rw [this]
      simp; omega

/-! ### Lists of ranges in parts -/

theorem listed_append {A B : List Range} {c : Nat} : Listed (A ++ B) c ↔ Listed A c ∨ Listed B c := by
  simp only [Listed, List.mem_append]
  constructor
  · rintro ⟨r, h | h, hr⟩
    · exact .inl ⟨r, h, hr⟩
    · exact .inr ⟨r, h, hr⟩
  · rintro (⟨r, h, hr⟩ | ⟨r, h, hr⟩)
    · exact ⟨r, .inl h, hr⟩
    · exact ⟨r, .inr h, hr⟩

theorem listed_single {r : Range} {c : Nat} : Listed [r] c ↔ r.1 ≤ c ∧ c ≤ r.2 := by
  simp [Listed]

theorem listed_nil {c : Nat} : ¬ Listed [] c := by simp [Listed]

theorem sep_append {A B : List Range} : Sep (A ++ B) ↔ Sep A ∧ Sep B ∧ ∀ x ∈ A, ∀ y ∈ B, x.2 + 1 < y.1 := by
  unfold Sep
  rw [List.pairwise_append]
  constructor
  · rintro ⟨⟨h1, h2, h3⟩, h4⟩
    exact ⟨⟨h1, fun r hr => h4 r (List.mem_append_left _ hr)⟩, ⟨h2, fun r hr => h4 r (List.mem_append_right _ hr)⟩, h3⟩
  · rintro ⟨⟨h1, h2⟩, ⟨h3, h4⟩, h5⟩
    exact ⟨⟨h1, h3, h5⟩, fun r hr => (List.mem_append.1 hr).elim (h2 r) (h4 r)⟩

theorem sep_single {r : Range} : Sep [r] ↔ r.1 ≤ r.2 := by simp [Sep]

theorem sep_nil : Sep [] := by simp [Sep]

/-- The codes of ranges which touch `b..e` from the right, together with `b..e`. -/
theorem listed_join {M : List Range} (hM : Sep M) {b e : Nat} (hlo : ∀ r ∈ M, b ≤ r.1)
    (hhi : ∀ r ∈ M, r.1 ≤ e + 1) (hne : M ≠ []) (c : Nat) :
    (b ≤ c ∧ c ≤ max e (rangeAt M (M.length - 1)).2) ↔ (b ≤ c ∧ c ≤ e) ∨ Listed M c := by
  have hpos : 0 < M.length := List.length_pos_iff.2 hne
  have hlast := rangeAt_mem (rs := M) (i := M.length - 1) (by omega)
  have h1 := hhi _ hlast
  have h2 := hlo _ hlast
  have h3 := hM.2 _ hlast
  constructor
  · rintro ⟨hb, hc⟩
    by_cases hce : c ≤ e
    · exact .inl ⟨hb, hce⟩
    · exact .inr ⟨_, hlast, by omega, by omega⟩
  · rintro (⟨hb, hc⟩ | ⟨r, hr, hc⟩)
    · exact ⟨hb, by omega⟩
    · refine ⟨Nat.le_trans (hlo r hr) hc.1, ?_⟩
      obtain ⟨i, hi, he⟩ := mem_rangeAt hr
      by_cases hil : i = M.length - 1
      · subst hil; rw [he]; omega
      · have := hM.lt (i := i) (j := M.length - 1) (by omega) (by omega)
        rw [he] at this; omega

theorem takeWhile_all (R : List Range) (e : Nat) : ∀ r ∈ R.takeWhile (fun r => decide (r.1 ≤ e + 1)), r.1 ≤ e + 1 := by
  intro r hr
  have := List.all_takeWhile (p := fun r : Range => decide (r.1 ≤ e + 1)) (l := R)
  simpa using List.all_eq_true.1 this r hr

theorem dropWhile_gt {R : List Range} (hR : Sep R) (e : Nat) :
    ∀ r ∈ R.dropWhile (fun r => decide (r.1 ≤ e + 1)), e + 1 < r.1 := by
  intro r hr
  generalize hD : R.dropWhile (fun r => decide (r.1 ≤ e + 1)) = D at hr
  have hsD : Sep D := by
    have : R = R.takeWhile (fun r => decide (r.1 ≤ e + 1)) ++ D := by rw [← hD, List.takeWhile_append_dropWhile]
    rw [this] at hR
    exact (sep_append.1 hR).2.1
  cases D with
  | nil => simp at hr
  | cons d D' =>
    have hd : e + 1 < d.1 := by
      have := List.head?_dropWhile_not (p := fun r : Range => decide (r.1 ≤ e + 1)) (l := R)
      rw [hD] at this
      simpa using this
    rcases List.mem_cons.1 hr with rfl | h
    · exact hd
    · have h1 := (List.pairwise_cons.1 hsD.1).1 r h
      have h2 := hsD.2 d (by simp)
      omega

/-- Adding a range gives the union, unless it is inside a range which is not the
last one. -/
theorem addRange_spec {rs : List Range} (hs : Sep rs) {b e : Nat} (hbe : b ≤ e)
    (hnew : ∀ x ∈ rs, ∀ y ∈ rs, x.2 < y.1 → x.1 < b → x.2 ≤ e) :
    Sep (addRange rs b e) ∧ addRange rs b e ≠ [] ∧ ∀ c, Listed (addRange rs b e) c ↔ Listed rs c ∨ (b ≤ c ∧ c ≤ e) := by
  obtain ⟨i, hse, hi, hl, hr⟩ := search_spec hs b (rs.length + 1) 0 rs.length (by omega) (by omega) (Nat.le_refl _)
    (by intro j hj; omega) (by intro j hj hj'; omega)
  obtain ⟨L, R, rfl, rfl⟩ : ∃ L R, rs = L ++ R ∧ L.length = i :=
    ⟨rs.take i, rs.drop i, (List.take_append_drop i rs).symm, by simp; omega⟩
  have hsp := sep_append.1 hs
  have hL : ∀ x ∈ L, x.1 < b := by
    intro x hx
    obtain ⟨j, hj, he⟩ := mem_rangeAt hx
    have := hl j hj
    rw [rangeAt_append_left hj, he] at this; exact this
  have hR : ∀ y ∈ R, b ≤ y.1 := by
    intro y hy
    obtain ⟨j, hj, he⟩ := mem_rangeAt hy
    have := hr (L.length + j) (by omega) (by simp; omega)
    rw [rangeAt_append_right, he] at this; exact this
  unfold addRange
  rw [hse]
  simp only
  by_cases hR0 : R = []
  · subst hR0
    simp only [List.append_nil] at *
    rw [if_pos trivial]
    rcases List.eq_nil_or_concat L with rfl | ⟨L', x, rfl⟩
    · simp [listed_single, listed_nil, sep_single, hbe]
    · simp only [List.concat_eq_append] at *
      have hx : rangeAt (L' ++ [x]) ((L' ++ [x]).length - 1) = x := by
        have := rangeAt_append_right (L := L') (R := [x]) 0
        simp [rangeAt]
      rw [hx]
      have hsx := sep_append.1 hs
      have hxb := hL x (by simp)
      by_cases hj : b ≤ x.2 + 1
      · rw [if_pos ⟨by simp, hj⟩]
        by_cases hex : x.2 < e
        case neg =>
          rw [if_neg hex]
          refine ⟨hs, by simp, fun c => ⟨.inl, ?_⟩⟩
          rintro (h | h)
          · exact h
          · exact ⟨x, by simp, by omega, by omega⟩
        rw [if_pos hex]
        have hset : (L' ++ [x]).set ((L' ++ [x]).length - 1) (x.1, e) = L' ++ [(x.1, e)] := by
          simp
        rw [hset]
        refine ⟨sep_append.2 ⟨hsx.1, sep_single.2 (by simp; omega), ?_⟩, by simp, fun c => ?_⟩
        · intro y hy z hz
          simp only [List.mem_singleton] at hz; subst hz
          exact hsx.2.2 y hy x (by simp)
        · simp only [listed_append, listed_single]
          constructor
          · rintro (h | h)
            · exact .inl (.inl h)
            · by_cases hc : c ≤ x.2
              · exact .inl (.inr ⟨h.1, hc⟩)
              · exact .inr ⟨by omega, h.2⟩
          · rintro ((h | h) | h)
            · exact .inl h
            · exact .inr ⟨h.1, by omega⟩
            · exact .inr ⟨by omega, h.2⟩
      · rw [if_neg (fun h => hj h.2)]
        refine ⟨sep_append.2 ⟨hs, sep_single.2 hbe, ?_⟩, by simp, fun c => ?_⟩
        · intro y hy z hz
          simp only [List.mem_singleton] at hz; subst hz
          rcases List.mem_append.1 hy with h | h
          · have := hsx.2.2 y h x (by simp)
            have := hsx.2.1.2 x (by simp)
            simp only; omega
          · simp only [List.mem_singleton] at h; subst h
            simp only; omega
        · rw [listed_append, listed_single]
  · have hRp : 0 < R.length := List.length_pos_iff.2 hR0
    rw [if_neg (by simp; omega)]
    unfold place
    generalize hM : R.takeWhile (fun r => decide (r.1 ≤ e + 1)) = M
    generalize hD : R.dropWhile (fun r => decide (r.1 ≤ e + 1)) = D
    have hRMD : R = M ++ D := by rw [← hM, ← hD, List.takeWhile_append_dropWhile]
    have hMe : ∀ r ∈ M, r.1 ≤ e + 1 := hM ▸ takeWhile_all R e
    have hDe : ∀ r ∈ D, e + 1 < r.1 := hD ▸ dropWhile_gt hsp.2.1 e
    have hsR := hsp.2.1
    rw [hRMD] at hsR
    have hsM := sep_append.1 hsR
    have hMb : ∀ r ∈ M, b ≤ r.1 := fun r h => hR r (hRMD ▸ List.mem_append_left _ h)
    -- the ranges of `D` follow the joined range
    have hjD : ∀ (P : List Range), P ≠ [] → (∀ x, rangeAt P (P.length - 1) = x → x.2 ≤ e ∨ x ∈ M) → ∀ y ∈ D,
        max e (rangeAt P (P.length - 1)).2 + 1 < y.1 := by
      intro P _ hP y hy
      have h1 := hDe y hy
      rcases hP _ rfl with h | h
      · omega
      · have := hsM.2.2 _ h y hy; omega
    by_cases hcut : 0 < L.length ∧ b ≤ (rangeAt (L ++ R) (L.length - 1)).2 + 1
    · obtain ⟨L', x, rfl⟩ : ∃ L' x, L = L' ++ [x] := by
        rcases List.eq_nil_or_concat L with rfl | ⟨L', x, rfl⟩
        · simp at hcut
        · exact ⟨L', x, by simp⟩
      have hx : rangeAt (L' ++ [x] ++ R) ((L' ++ [x]).length - 1) = x := by
        have := rangeAt_append_right (L := L') (R := x :: R) 0
        simp [rangeAt]
      rw [hx] at hcut ⊢
      have hsx := sep_append.1 hsp.1
      have hxb := hL x (by simp)
      have hex : x.2 ≤ e := by
        obtain ⟨y, hy⟩ := List.exists_mem_of_ne_nil _ hR0
        have := hsp.2.2 x (by simp) y hy
        exact hnew x (by simp) y (List.mem_append_right _ hy) (by omega) hxb
      have hdec : (decide (0 < (L' ++ [x]).length) && decide (b ≤ x.2 + 1)) = true := by simp [hcut.2]
      simp only [hdec, if_true]
      have hset : (L' ++ [x] ++ R).set ((L' ++ [x]).length - 1) (x.1, e) = L' ++ [(x.1, e)] ++ R := by
        simp
      rw [hset]
      have hsc : scan (L' ++ [(x.1, e)] ++ R) e (L' ++ [(x.1, e)] ++ R).length (L' ++ [x]).length =
          L'.length + 1 + M.length := by
        have := scan_spec e R (L' ++ [(x.1, e)]) (L' ++ [(x.1, e)] ++ R).length (by simp; omega)
        rw [hM] at this
        simpa using this
      rw [hsc]
      have hlen : (L' ++ [x]).length - 1 = L'.length := by simp
      rw [hlen, if_pos (by omega)]
      have hj0 : rangeAt (L' ++ [(x.1, e)] ++ R) L'.length = (x.1, e) := by
        have := rangeAt_append_right (L := L') (R := (x.1, e) :: R) 0
        simp [rangeAt]
      have hj1 : rangeAt (L' ++ [(x.1, e)] ++ R) (L'.length + 1 + M.length - 1) =
          rangeAt ((x.1, e) :: M) (((x.1, e) :: M).length - 1) := by
        rw [hRMD]
        have h1 := rangeAt_append_right (L := L') (R := ((x.1, e) :: M) ++ D) M.length
        have h2 := rangeAt_append_left (L := (x.1, e) :: M) (R := D) (i := M.length) (by simp)
        have : L'.length + 1 + M.length - 1 = L'.length + M.length := by omega
        rw [this]
        simp only [List.length_cons, Nat.add_sub_cancel]
        rw [← h2, ← h1]
        simp
      rw [hj0, hj1]
      have htake : (L' ++ [(x.1, e)] ++ R).take L'.length = L' := by simp
      have hdrop : (L' ++ [(x.1, e)] ++ R).drop (L'.length + 1 + M.length) = D := by
        rw [hRMD]
        have : L' ++ [(x.1, e)] ++ (M ++ D) = (L' ++ [(x.1, e)] ++ M) ++ D := by simp
        rw [this, List.drop_left' (by simp; omega)]
      rw [htake, hdrop]
      have hmin : min b (x.1, e).1 = x.1 := by simp; omega
      have hmax : max (x.1, e).2 (max e (rangeAt ((x.1, e) :: M) (((x.1, e) :: M).length - 1)).2) =
          max e (rangeAt ((x.1, e) :: M) (((x.1, e) :: M).length - 1)).2 := by
        simp only; omega
      rw [hmin, hmax]
      have hlastP : ∀ z, rangeAt ((x.1, e) :: M) (((x.1, e) :: M).length - 1) = z → z.2 ≤ e ∨ z ∈ M := by
        rintro z rfl
        have := rangeAt_mem (rs := (x.1, e) :: M) (i := ((x.1, e) :: M).length - 1) (by simp)
        rcases List.mem_cons.1 this with h | h
        · left; rw [h]; exact Nat.le_refl _
        · exact .inr h
      have hDg := hjD ((x.1, e) :: M) (by simp) hlastP
      refine ⟨?_, by simp, fun c => ?_⟩
      · rw [List.append_assoc]
        refine sep_append.2 ⟨hsx.1, sep_append.2 ⟨sep_single.2 (by simp; omega), hsM.2.1, ?_⟩, ?_⟩
        · intro y hy z hz
          simp only [List.mem_singleton] at hy; subst hy
          exact hDg z hz
        · intro y hy z hz
          have h1 := hsx.2.2 y hy x (by simp)
          rcases List.mem_append.1 hz with h | h
          · simp only [List.mem_singleton] at h; subst h; exact h1
          · have := hDe z h; omega
      · rw [hRMD]
        simp only [listed_append, listed_single]
        have hjoin : (x.1 ≤ c ∧ c ≤ max e (rangeAt ((x.1, e) :: M) (((x.1, e) :: M).length - 1)).2) ↔
            ((x.1 ≤ c ∧ c ≤ e) ∨ Listed M c) := by
          by_cases hM0 : M = []
          · subst hM0
            simp [rangeAt, listed_nil]
          · have hl : rangeAt ((x.1, e) :: M) (((x.1, e) :: M).length - 1) = rangeAt M (M.length - 1) := by
              have := rangeAt_append_right (L := [(x.1, e)]) (R := M) (M.length - 1)
              have hMp : 0 < M.length := List.length_pos_iff.2 hM0
              have h2 : [(x.1, e)].length + (M.length - 1) = ((x.1, e) :: M).length - 1 := by simp; omega
              rw [h2] at this
              exact this
            rw [hl]
            exact listed_join hsM.1 (fun r h => by have := hMb r h; omega) hMe hM0 c
        rw [hjoin]
        constructor
        · rintro ((h | h | h) | h)
          · exact .inl (.inl (.inl h))
          · by_cases hc : c ≤ x.2
            · exact .inl (.inl (.inr ⟨h.1, hc⟩))
            · exact .inr ⟨by omega, h.2⟩
          · exact .inl (.inr (.inl h))
          · exact .inl (.inr (.inr h))
        · rintro (((h | h) | h | h) | h)
          · exact .inl (.inl h)
          · exact .inl (.inr (.inl ⟨h.1, by omega⟩))
          · exact .inl (.inr (.inr h))
          · exact .inr h
          · exact .inl (.inr (.inl ⟨by omega, h.2⟩))
    · have hdec : (decide (0 < L.length) && decide (b ≤ (rangeAt (L ++ R) (L.length - 1)).2 + 1)) = false := by
        by_cases h0 : 0 < L.length
        · simp only [h0, true_and] at hcut
          simp [hcut]
        · simp [h0]
      simp only [hdec, Bool.false_eq_true, if_false]
      have hLb : ∀ x ∈ L, x.2 + 1 < b := by
        intro x hx
        obtain ⟨j, hj, he⟩ := mem_rangeAt hx
        have hpos : 0 < L.length := by omega
        have hlast : ¬ b ≤ (rangeAt (L ++ R) (L.length - 1)).2 + 1 := fun h => hcut ⟨hpos, h⟩
        rw [rangeAt_append_left (by omega)] at hlast
        by_cases hjl : j = L.length - 1
        · subst hjl; rw [he] at hlast; omega
        · have h1 := hsp.1.lt (i := j) (j := L.length - 1) (by omega) (by omega)
          have h2 := hsp.1.le (i := L.length - 1) (by omega)
          rw [he] at h1; omega
      have hsc : scan (L ++ R) e (L ++ R).length L.length = L.length + M.length := by
        have := scan_spec e R L (L ++ R).length (by simp)
        rw [hM] at this
        exact this
      rw [hsc]
      have htake : (L ++ R).take L.length = L := by simp
      rw [htake]
      by_cases hM0 : M = []
      · subst hM0
        simp only [List.nil_append] at hRMD
        subst hRMD
        rw [if_neg (by simp)]
        have hdrop : (L ++ R).drop L.length = R := by simp
        rw [hdrop]
        refine ⟨?_, by simp, fun c => ?_⟩
        · rw [List.append_assoc]
          refine sep_append.2 ⟨hsp.1, sep_append.2 ⟨sep_single.2 hbe, hsp.2.1, ?_⟩, ?_⟩
          · intro y hy z hz
            simp only [List.mem_singleton] at hy; subst hy
            exact hDe z hz
          · intro y hy z hz
            rcases List.mem_append.1 hz with h | h
            · simp only [List.mem_singleton] at h; subst h; exact hLb y hy
            · exact hsp.2.2 y hy z h
        · simp only [listed_append, listed_single]
          constructor
          · rintro ((h | h) | h)
            · exact .inl (.inl h)
            · exact .inr h
            · exact .inl (.inr h)
          · rintro ((h | h) | h)
            · exact .inl (.inl h)
            · exact .inr h
            · exact .inl (.inr h)
      · have hMp : 0 < M.length := List.length_pos_iff.2 hM0
        rw [if_pos (by omega)]
        have hj0 : rangeAt (L ++ R) L.length = rangeAt M 0 := by
          rw [hRMD]
          have h1 := rangeAt_append_right (L := L) (R := M ++ D) 0
          rw [Nat.add_zero] at h1
          rw [h1, rangeAt_append_left hMp]
        have hj1 : rangeAt (L ++ R) (L.length + M.length - 1) = rangeAt M (M.length - 1) := by
          rw [hRMD]
          have h1 := rangeAt_append_right (L := L) (R := M ++ D) (M.length - 1)
          have : L.length + M.length - 1 = L.length + (M.length - 1) := by omega
          rw [this, h1, rangeAt_append_left (by omega)]
        have hdrop : (L ++ R).drop (L.length + M.length) = D := by
          rw [hRMD, ← List.append_assoc, List.drop_left' (by simp)]
        rw [hj0, hj1, hdrop]
        have hmin : min b (rangeAt M 0).1 = b := by
          have := hMb _ (rangeAt_mem hMp); omega
        have hmax : max (rangeAt M 0).2 (max e (rangeAt M (M.length - 1)).2) = max e (rangeAt M (M.length - 1)).2 := by
          by_cases h1 : M.length = 1
          · have : M.length - 1 = 0 := by omega
            rw [this]; omega
          · have h2 := hsM.1.lt (i := 0) (j := M.length - 1) (by omega) (by omega)
            have h3 := hsM.1.le (i := M.length - 1) (by omega)
            omega
        rw [hmin, hmax]
        have hDg := hjD M hM0 (by rintro z rfl; exact .inr (rangeAt_mem (by omega)))
        refine ⟨?_, by simp, fun c => ?_⟩
        · rw [List.append_assoc]
          refine sep_append.2 ⟨hsp.1, sep_append.2 ⟨sep_single.2 (by simp; omega), hsM.2.1, ?_⟩, ?_⟩
          · intro y hy z hz
            simp only [List.mem_singleton] at hy; subst hy
            exact hDg z hz
          · intro y hy z hz
            rcases List.mem_append.1 hz with h | h
            · simp only [List.mem_singleton] at h; subst h; exact hLb y hy
            · exact hsp.2.2 y hy z (hRMD ▸ List.mem_append_right _ h)
        · rw [hRMD]
          simp only [listed_append, listed_single]
          rw [listed_join hsM.1 hMb hMe hM0 c]
          constructor
          · rintro ((h | h | h) | h)
            · exact .inl (.inl h)
            · exact .inr h
            · exact .inl (.inr (.inl h))
            · exact .inl (.inr (.inr h))
          · rintro ((h | h | h) | h)
            · exact .inl (.inl h)
            · exact .inl (.inr (.inr h))
            · exact .inr h
            · exact .inl (.inr (.inl h))

/-! ### `match_class` -/

theorem within_spec {rs : List Range} (hs : Sep rs) (c : Nat) : ∀ (fuel lo hi : Nat), hi - lo ≤ fuel → lo < hi →
    hi ≤ rs.length → (within rs c fuel lo hi = true ↔ ∃ i, lo ≤ i ∧ i < hi ∧ (rangeAt rs i).1 ≤ c ∧ c ≤ (rangeAt rs i).2)
  | 0, _, _, h, hlt, _ => by omega
  | fuel + 1, lo, hi, h, hlt, hn => by
    unfold within
    have hm : (lo + hi) / 2 < hi := by omega
    have hm' : lo ≤ (lo + hi) / 2 := by omega
    have hmle := hs.le (i := (lo + hi) / 2) (by omega)
    simp only
    by_cases h1 : c < (rangeAt rs ((lo + hi) / 2)).1
    · rw [if_pos h1]
      have hcut : ∀ i, (lo + hi) / 2 ≤ i → i < hi → ¬ ((rangeAt rs i).1 ≤ c) := by
        intro i hi1 hi2 hc
        by_cases hie : i = (lo + hi) / 2
        · subst hie; omega
        · have := hs.start_lt (i := (lo + hi) / 2) (j := i) (by omega) (by omega); omega
      by_cases hl : lo < (lo + hi) / 2
      · rw [if_pos hl, within_spec hs c fuel lo _ (by omega) hl (by omega)]
        constructor
        · rintro ⟨i, a, b, d⟩; exact ⟨i, a, by omega, d⟩
        · rintro ⟨i, a, b, d⟩
          refine ⟨i, a, ?_, d⟩
          apply Nat.lt_of_not_le; intro hle; exact hcut i hle b d.1
      · rw [if_neg hl]
        simp only [Bool.false_eq_true, false_iff]
        rintro ⟨i, a, b, d⟩
        exact hcut i (by omega) b d.1
    · rw [if_neg h1]
      by_cases h2 : (rangeAt rs ((lo + hi) / 2)).2 < c
      · rw [if_pos h2]
        have hcut : ∀ i, lo ≤ i → i ≤ (lo + hi) / 2 → ¬ (c ≤ (rangeAt rs i).2) := by
          intro i hi1 hi2 hc
          by_cases hie : i = (lo + hi) / 2
          · subst hie; omega
          · have := hs.lt (i := i) (j := (lo + hi) / 2) (by omega) (by omega); omega
        by_cases hl : (lo + hi) / 2 + 1 < hi
        · rw [if_pos hl, within_spec hs c fuel _ hi (by omega) hl hn]
          constructor
          · rintro ⟨i, a, b, d⟩; exact ⟨i, by omega, b, d⟩
          · rintro ⟨i, a, b, d⟩
            refine ⟨i, ?_, b, d⟩
            apply Nat.lt_of_not_le; intro hle; exact hcut i a (by omega) d.2
        · rw [if_neg hl]
          simp only [Bool.false_eq_true, false_iff]
          rintro ⟨i, a, b, d⟩
          exact hcut i a (by omega) d.2
      · rw [if_neg h2]
        simp only [true_iff]
        exact ⟨_, hm', hm, by omega, by omega⟩

theorem matchClass_spec {rs : List Range} (hs : Sep rs) (hne : rs ≠ []) (c : Nat) :
    ∃ v, matchClass rs c = some v ∧ (v = true ↔ Listed rs c) := by
  refine ⟨_, by unfold matchClass; rw [if_neg hne], ?_⟩
  have hpos : 0 < rs.length := List.length_pos_iff.2 hne
  rw [within_spec hs c rs.length 0 rs.length (by omega) hpos (Nat.le_refl _)]
  constructor
  · rintro ⟨i, _, hi, h⟩; exact ⟨_, rangeAt_mem hi, h⟩
  · rintro ⟨r, hr, h⟩
    obtain ⟨i, hi, he⟩ := mem_rangeAt hr
    exact ⟨i, Nat.zero_le _, hi, by rw [he]; exact h⟩

end Verif.Re
