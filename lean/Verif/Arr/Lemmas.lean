import Verif.Arr.Model

/-! Invariant of single-threaded arrays and the effect of each operation. -/
namespace Verif.Arr

variable {V : Type}

/-- The array holds exactly the elements of `l`; unused slots are tombstones. -/
def Rep (s : A V) (l : List V) : Prop :=
  s.size = l.length ∧
  match s.data with
  | none => l = []
  | some b => ∃ k, b = l.map .val ++ List.replicate k .tomb ∧ 0 < b.length ∧ b.length ≤ maxSize + 3

theorem grant_ge (c : Nat) (h : 0 < c) : c ≤ grant c ∧ grant c ≤ c + 3 := by
  unfold grant; omega

theorem grant_zero : grant 0 = 1 := by decide

theorem Rep.size_lt {s : A V} {l : List V} (h : Rep s l) : l.length ≤ maxSize + 3 := by
  obtain ⟨_, h2⟩ := h
  cases hd : s.data with
  | none => rw [hd] at h2; simp only at h2; subst h2; simp [maxSize]
  | some b =>
    rw [hd] at h2; obtain ⟨k, e, _, hb⟩ := h2
    have := congrArg List.length e
    simp only [List.length_append, List.length_map] at this
    omega

theorem Rep.cells {s : A V} {l : List V} (h : Rep s l) (i : Nat) (hi : i < l.length) :
    ∃ b, s.data = some b ∧ b[i]? = some (.val l[i]) := by
  obtain ⟨_, h2⟩ := h
  cases hd : s.data with
  | none => rw [hd] at h2; simp only at h2; subst h2; simp at hi
  | some b =>
    rw [hd] at h2; obtain ⟨k, e, _, _⟩ := h2
    refine ⟨b, rfl, ?_⟩
    rw [e, List.getElem?_append_left (by simpa using hi)]
    simp [List.getElem?_eq_getElem hi]

theorem Rep.set {s : A V} {l : List V} (h : Rep s l) (i : Nat) (hi : i < l.length) (v : V) (b : List (Cell V)) (hb : s.data = some b) :
    Rep { s with data := some (b.set i (.val v)) } (l.set i v) := by
  obtain ⟨h1, h2⟩ := h
  rw [hb] at h2
  obtain ⟨k, e, p, q⟩ := h2
  refine ⟨by simpa using h1, k, ?_, by simpa using p, by simpa using q⟩
  rw [e, List.set_append_left _ _ (by simpa using hi), List.map_set]

theorem bufIdx_eq (idx : Int) (n : Nat) (h1 : -2147483648 ≤ idx) (h2 : idx ≤ 2147483647) (hn : n ≤ maxSize + 3) :
    (0 ≤ idx → bufIdx idx n = idx.toNat) ∧ (idx < 0 → 0 ≤ idx + n → bufIdx idx n = (idx + n).toNat) ∧
    (idx < 0 → idx + n < 0 → n ≤ bufIdx idx n) := by
  unfold bufIdx maxSize at *
  refine ⟨fun h => by rw [if_neg (by omega)], fun h h' => ?_, fun h h' => ?_⟩
  · rw [if_pos h]; omega
  · rw [if_pos h]; omega

/-! ### Moving the slots to a new block -/

theorem copyLoop_spec (rest : List (Cell V)) : ∀ (done dd tail : List (Cell V)) (fuel : Nat),
    (∀ c ∈ rest, c ≠ .closed) → rest ≠ [] → rest.length ≤ fuel → dd.length = done.length →
    copyLoop fuel (done ++ rest) (dd ++ List.replicate rest.length .tomb ++ tail) rest.length done.length
      = some (done ++ List.replicate rest.length .closed, dd ++ rest ++ tail) := by
  induction rest with
  | nil => intro _ _ _ _ _ h; exact absurd rfl h
  | cons c rest ih =>
    intro done dd tail fuel hc _ hf hl
    obtain ⟨fuel, rfl⟩ : ∃ f, fuel = f + 1 := ⟨fuel - 1, by simp at hf; omega⟩
    have e1 : (done ++ c :: rest)[done.length]? = some c := by simp
    have e2 : (dd ++ List.replicate (c :: rest).length (Cell.tomb (V := V)) ++ tail)[done.length]? = some .tomb := by
      rw [List.append_assoc, ← hl, List.length_cons, List.replicate_succ]
      simp
    have hcc : c ≠ .closed := hc c (by simp)
    have s1 : (done ++ c :: rest).set done.length .closed = (done ++ [.closed]) ++ rest := by simp
    have s2 : (dd ++ List.replicate (c :: rest).length (Cell.tomb (V := V)) ++ tail).set done.length c
        = (dd ++ [c]) ++ List.replicate rest.length .tomb ++ tail := by
      rw [List.append_assoc, ← hl, List.length_cons, List.replicate_succ]
      simp
    have step : copyLoop (fuel + 1) (done ++ c :: rest) (dd ++ List.replicate (c :: rest).length .tomb ++ tail) (c :: rest).length done.length
        = if (c :: rest).length = 1 then some ((done ++ [.closed]) ++ rest, (dd ++ [c]) ++ List.replicate rest.length .tomb ++ tail)
          else copyLoop fuel ((done ++ [.closed]) ++ rest) ((dd ++ [c]) ++ List.replicate rest.length .tomb ++ tail) ((c :: rest).length - 1)
            (if done.length + 1 = (done ++ c :: rest).length then 0 else done.length + 1) := by
      rw [copyLoop, e1, e2, ← s1, ← s2]
      cases c with
      | closed => exact absurd rfl hcc
      | tomb => rfl
      | val v => rfl
    rw [step]
    cases rest with
    | nil => simp
    | cons d rest' =>
      rw [if_neg (by simp), if_neg (by simp)]
      have := ih (done ++ [.closed]) (dd ++ [c]) tail fuel (fun x hx => hc x (List.mem_cons_of_mem _ hx)) (by simp) (by simp at hf ⊢; omega) (by simp [hl])
      rw [List.length_append, List.length_singleton] at this
      rw [show (c :: d :: rest').length - 1 = (d :: rest').length from rfl, this]
      simp [List.replicate_succ]

theorem copyBuf_spec (src : List (Cell V)) (k : Nat) (h : ∀ c ∈ src, c ≠ .closed) (hne : src ≠ []) (hk : src.length ≤ k) :
    copyBuf src (List.replicate k .tomb) = some (src ++ List.replicate (k - src.length) .tomb) := by
  unfold copyBuf
  have hp : 0 < src.length := List.length_pos_iff.mpr hne
  have := copyLoop_spec src [] [] (List.replicate (k - src.length) .tomb) (src.length + 1) h hne (by omega) rfl
  simp only [List.nil_append, List.length_nil] at this
  rw [Nat.sub_self, Nat.zero_mod]
  have e : List.replicate k (Cell.tomb (V := V)) = List.replicate src.length .tomb ++ List.replicate (k - src.length) .tomb := by
    rw [List.replicate_append_replicate]; congr 1; omega
  rw [e, this]; rfl

theorem rep_not_closed (l : List V) (k : Nat) : ∀ c ∈ l.map Cell.val ++ List.replicate k .tomb, c ≠ .closed := by
  intro c hc
  simp only [List.mem_append, List.mem_map, List.mem_replicate] at hc
  rcases hc with ⟨v, _, rfl⟩ | ⟨_, rfl⟩ <;> simp

theorem Rep.capacity_ge {s : A V} {l : List V} (h : Rep s l) : l.length ≤ capacity s ∧ capacity s ≤ maxSize + 3 := by
  obtain ⟨_, h2⟩ := h
  unfold capacity
  cases hd : s.data with
  | none => rw [hd] at h2; simp only at h2; subst h2; simp
  | some b =>
    rw [hd] at h2; obtain ⟨k, e, _, hb⟩ := h2
    have := congrArg List.length e
    simp only [List.length_append, List.length_map] at this
    simp only; omega

/-- Growing the storage does not change the contents; the only failure is lack of memory. -/
theorem resizeStorage_spec (mem : Nat → Bool) (s : A V) (l : List V) (c : Nat) (h : Rep s l) (hc : capacity s < c) :
    (∃ s', resizeStorage mem s c = .ok () s' ∧ Rep s' l ∧ c ≤ capacity s' ∧ capacity s' ≤ c + 3 ∧ s'.ro = s.ro ∧ c < maxSize ∧ mem c = true) ∨
    (resizeStorage mem s c = .raise .outOfMemory s ∧ ¬ (c < maxSize ∧ mem c = true)) := by
  unfold resizeStorage allocBuffer
  by_cases hm : c < maxSize ∧ mem c = true
  · left
    rw [if_pos hm]
    have hg := grant_ge c (by omega)
    obtain ⟨h1, h2⟩ := h
    cases hd : s.data with
    | none =>
      rw [hd] at h2; simp only at h2
      refine ⟨_, rfl, ⟨h1, grant c, by simp [h2], by simp; omega, by simp; omega⟩, by simp [capacity]; omega, by simp [capacity]; omega, rfl, hm⟩
    | some b =>
      rw [hd] at h2; obtain ⟨k, e, hp, hb⟩ := h2
      have hcap : capacity s = b.length := by simp [capacity, hd]
      rw [hcap] at hc
      have cb : copyBuf b (List.replicate (grant c) Cell.tomb) = some (b ++ List.replicate (grant c - b.length) .tomb) :=
        copyBuf_spec b (grant c) (by rw [e]; exact rep_not_closed l k) (List.length_pos_iff.mp hp) (by omega)
      simp only [cb]
      refine ⟨_, rfl, ⟨h1, k + (grant c - b.length), ?_, ?_, ?_⟩, ?_, ?_, rfl, hm⟩
      · conv => lhs; rw [e]
        rw [List.append_assoc, List.replicate_append_replicate, ← e]
      · simp; omega
      · simp; omega
      · simp [capacity]; omega
      · simp [capacity]; omega
  · right
    rw [if_neg hm]; exact ⟨rfl, hm⟩

theorem reserve_spec (mem : Nat → Bool) (s : A V) (l : List V) (c : Nat) (h : Rep s l) (hro : s.ro = false) :
    (∃ s', reserve mem s c = .ok () s' ∧ Rep s' l ∧ c ≤ capacity s' ∧ s'.ro = s.ro) ∨
    (reserve mem s c = .raise .outOfMemory s ∧ capacity s < c ∧ ¬ (c < maxSize ∧ mem c = true)) := by
  unfold reserve
  rw [hro]
  simp only [Bool.false_eq_true, if_false]
  rw [reserveLoop]
  by_cases hc : c > capacity s
  · rw [if_pos hc]
    rcases resizeStorage_spec mem s l c h hc with ⟨s', e, hr, hg, _, hro', _⟩ | ⟨e, hm⟩
    · left
      rw [e]; simp only
      rw [reserveLoop, if_neg (by omega)]
      exact ⟨s', rfl, hr, hg, by rw [hro', hro]⟩
    · right; rw [e]; exact ⟨rfl, hc, hm⟩
  · left
    rw [if_neg hc]
    exact ⟨s, rfl, h, by omega, hro⟩

/-! ### Filling slots and changing the size -/

theorem fillCells_spec (n : Nat) : ∀ (pre mid post : List (Cell V)) (c : Cell V), mid.length = n →
    fillCells n (pre ++ mid ++ post) pre.length c = some (pre ++ List.replicate n c ++ post) := by
  induction n with
  | zero => intro pre mid post c h; rw [List.length_eq_zero_iff.mp h]; simp [fillCells]
  | succ n ih =>
    intro pre mid post c h
    cases mid with
    | nil => simp at h
    | cons m mid =>
      rw [fillCells, if_pos (by simp)]
      have e : (pre ++ m :: mid ++ post).set pre.length c = (pre ++ [c]) ++ mid ++ post := by simp
      rw [e]
      have := ih (pre ++ [c]) mid post c (by simpa using h)
      rw [List.length_append, List.length_singleton] at this
      rw [this]
      simp [List.replicate_succ]

/-- What a resized sequence is: a prefix, or the sequence extended with void. -/
theorem setSize_spec (s : A V) (l : List V) (void : V) (n : Nat) (h : Rep s l) (hn : n ≤ capacity s) :
    ∃ s', setSize s void n = .ok () s' ∧ Rep s' (l.take n ++ List.replicate (n - l.length) void) ∧ s'.ro = s.ro ∧ capacity s' = capacity s := by
  obtain ⟨h1, h2⟩ := h
  unfold setSize
  by_cases e0 : n = s.size
  · rw [if_pos e0]
    refine ⟨_, rfl, ?_, rfl, rfl⟩
    have : l.take n ++ List.replicate (n - l.length) void = l := by
      rw [e0, h1]; simp
    rw [this]
    exact ⟨by rw [← h1, e0], h2⟩
  · rw [if_neg e0]
    cases hd : s.data with
    | none =>
      rw [hd] at h2; simp only at h2
      simp only [capacity, hd] at hn
      rw [h2] at h1; simp at h1; omega
    | some b =>
      rw [hd] at h2
      obtain ⟨k, e, hp, hb⟩ := h2
      simp only [capacity, hd] at hn
      have hlen := congrArg List.length e
      simp only [List.length_append, List.length_map, List.length_replicate] at hlen
      by_cases hg : n > s.size
      · simp only
        have f : fillCells (n - s.size) b s.size (.val void)
            = some (l.map Cell.val ++ List.replicate (n - s.size) (.val void) ++ List.replicate (k - (n - s.size)) .tomb) := by
          have := fillCells_spec (n - s.size) (l.map Cell.val) (List.replicate (n - s.size) .tomb) (List.replicate (k - (n - s.size)) .tomb) (.val void) (by simp)
          rw [List.append_assoc, List.replicate_append_replicate, List.length_map, ← h1] at this
          rw [show n - s.size + (k - (n - s.size)) = k by omega] at this
          rw [e, this]
        rw [if_pos hg, f]
        simp only
        refine ⟨_, rfl, ⟨?_, k - (n - s.size), ?_, ?_, ?_⟩, rfl, ?_⟩
        · simp; omega
        · rw [List.take_of_length_le (by omega), List.map_append, List.map_replicate, h1]
        · simp; omega
        · simp; omega
        · simp only [capacity, List.length_append, List.length_map, List.length_replicate, hd]; omega
      · simp only
        have hlt : n < l.length := by omega
        have f : fillCells (s.size - n) b n .tomb
            = some ((l.take n).map Cell.val ++ List.replicate (s.size - n) .tomb ++ List.replicate k .tomb) := by
          have := fillCells_spec (s.size - n) ((l.take n).map Cell.val) ((l.drop n).map .val) (List.replicate k .tomb) .tomb (by simp; omega)
          rw [← List.map_append, List.take_append_drop, List.length_map, List.length_take, Nat.min_eq_left (by omega), ← e] at this
          exact this
        rw [if_neg hg, f]
        simp only
        refine ⟨_, rfl, ⟨?_, (s.size - n) + k, ?_, ?_, ?_⟩, rfl, ?_⟩
        · simp; omega
        · rw [show n - l.length = 0 by omega]
          simp [← List.append_assoc, List.append_assoc, List.replicate_append_replicate]
        · simp; omega
        · simp; omega
        · simp only [capacity, List.length_append, List.length_map, List.length_replicate, hd, List.length_take]; omega

/-- Why an array of `n` elements may be impossible: memory was refused, or `n` is at least half of the limit (the code asks
for up to twice the size). -/
def Refused (mem : Nat → Bool) (n : Nat) : Prop := (∃ c, mem c = false) ∨ maxSize ≤ 2 * n

theorem Refused.of (mem : Nat → Bool) (c n : Nat) (h : ¬ (c < maxSize ∧ mem c = true)) (hc : c ≤ 2 * n) : Refused mem n := by
  unfold Refused
  cases hm : mem c with
  | false => exact Or.inl ⟨c, hm⟩
  | true => right; have : ¬ c < maxSize := fun x => h ⟨x, hm⟩
            omega

theorem resize_spec (mem : Nat → Bool) (s : A V) (l : List V) (void : V) (n : Nat) (h : Rep s l) (hro : s.ro = false) :
    (∃ s', resize mem s void n = .ok () s' ∧ Rep s' (l.take n ++ List.replicate (n - l.length) void) ∧ s'.ro = false ∧ n ≤ capacity s') ∨
    (resize mem s void n = .raise .outOfMemory s ∧ capacity s < n ∧ Refused mem n) := by
  unfold resize
  rw [hro]
  simp only [Bool.false_eq_true, if_false]
  by_cases hc : n > capacity s
  · rw [if_pos hc]
    generalize hcap : (if capacity s * 2 % 4294967296 > n then capacity s * 2 % 4294967296 else n) = c
    have hcn : n ≤ c := by subst hcap; split <;> omega
    rcases reserve_spec mem s l c h hro with ⟨s', e, hr, hg, hr'⟩ | ⟨e, _, hn⟩
    · left
      rw [e]; simp only
      obtain ⟨s'', e2, hr2, hro2, hcc⟩ := setSize_spec s' l void n hr (by omega)
      exact ⟨s'', e2, hr2, by rw [hro2, hr', hro], by omega⟩
    · right; rw [e]; exact ⟨rfl, hc, .of mem c n hn (by subst hcap; split <;> omega)⟩
  · left
    rw [if_neg hc]
    obtain ⟨s'', e2, hr2, hro2, hcc⟩ := setSize_spec s l void n h (by omega)
    exact ⟨s'', e2, hr2, by rw [hro2, hro], by omega⟩

end Verif.Arr
