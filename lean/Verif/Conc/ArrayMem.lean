import Verif.Conc.ArrayInv

/-! What changes of the shared memory keep the invariant of the memory and of the other threads. -/
namespace Verif.Conc

def mput (m : Mem) (k i : Nat) (x : Slot) : Mem := { m with mem := upd m.mem k (upd (m.mem k) i x) }

theorem mput_eq (m : Mem) (k i : Nat) (x : Slot) (k' i' : Nat) : (mput m k i x).mem k' i' = if k' = k ∧ i' = i then x else m.mem k' i' := by
  simp only [mput, upd]
  by_cases hk : k' = k
  · subst hk
    by_cases hi : i' = i
    · simp [hi, upd]
    · simp [hi, upd]
  · simp [hk]

theorem mput_same (m : Mem) (k i : Nat) : mput m k i (m.mem k i) = m := by
  have : (mput m k i (m.mem k i)).mem = m.mem := by
    funext k' i'
    rw [mput_eq]
    split
    · next h => rw [h.1, h.2]
    · rfl
  cases m
  simp only [mput, Mem.mk.injEq, true_and, and_true] at this ⊢
  exact this

theorem LInv.mono {m m' : Mem} {l l' : List Nat} {y : Local} (h : LInv m l y) (hcap : m'.cap = m.cap) (hlast : m'.last = m.last)
    (hdata : m'.data = m.data) (hsize : m'.size = m.size) (hmem : ∀ k i, m.mem k i = .closed → m'.mem k i = .closed)
    (hlen : l.length ≤ l'.length) (hg : grower y = true → l'.length = l.length)
    (hown : ∀ k i v, Owns y k i v → OwnInv m k i v → OwnInv m' k i v) : LInv m' l' y := by
  have hat : ∀ o k, (o.isPush = true → l'.length = l.length) → At m l o k → At m' l' o k := by
    intro o k hp ha
    refine ⟨by rw [hlast]; exact ha.le, by rw [hcap]; exact ha.lt, ?_, ?_⟩
    · rw [hdata]; intro hd; exact hmem _ _ (ha.moved hd)
    · intro i v ho
      have := ha.push i v ho
      rw [hdata, hlast, hsize, hp (by rw [ho]; rfl)]
      exact this
  cases y with
  | idle => trivial
  | size o => exact h
  | data o => exact ⟨h.1, by rw [hcap, hdata]; exact h.2⟩
  | acc o k => exact hat o k hg h
  | next o k => exact ⟨hat o k hg h.1, hmem _ _ h.2⟩
  | swap o k cur => exact ⟨hat o k hg h.1, h.2⟩
  | copy c k pc =>
    obtain ⟨h1, h2, h3, h4⟩ := h
    refine ⟨by rw [hlast]; exact h1, ?_, ?_, ?_⟩
    · cases c with
      | op o => exact ⟨h2.1, by rw [hcap]; exact h2.2.1, hmem _ _ h2.2.2⟩
      | grow g n =>
        simp only [ContInv] at h2 ⊢
        rw [hcap, hlast, hsize, hg rfl]; exact h2
    · cases pc with
      | start => trivial
      | rd i d => simp only [PcInv] at h3 ⊢; rw [hcap]; exact h3
      | wr i d v =>
        simp only [PcInv] at h3 ⊢; rw [hcap]
        exact ⟨h3.1, h3.2.1, h3.2.2.1, fun hv => Nat.lt_of_lt_of_le (h3.2.2.2.1 hv) hlen, h3.2.2.2.2⟩
      | cl i v => simp only [PcInv] at h3 ⊢; rw [hcap]; exact h3
      | chk i => simp only [PcInv] at h3 ⊢; rw [hcap]; exact h3
      | dec i => simp only [PcInv] at h3 ⊢; rw [hcap]; exact h3
      | fin => simp only [PcInv] at h3 ⊢; rw [hcap]; intro i hi; exact hmem _ _ (h3 i hi)
    · intro i v ho; exact hown k i v ho (h4 i v ho)
  | grow g pc =>
    have hl := hg rfl
    refine ⟨by rw [hdata, hlast]; exact h.1, ?_⟩
    have h2 := h.2
    cases pc <;> simp only [GrowInv] at h2 ⊢ <;> (try rw [hl]) <;> (try rw [hsize]) <;> (try rw [hcap]) <;> (try rw [hdata]) <;> exact h2

theorem Owns.inv {m : Mem} {l : List Nat} {y : Local} {k i v : Nat} (h : LInv m l y) (ho : Owns y k i v) : OwnInv m k i v := by
  cases ho with
  | rd c => exact h.2.2.2 _ _ (.rd _ _ _ _)
  | wr c => exact h.2.2.2 _ _ (.wr _ _ _ _ _)
  | cl c => exact h.2.2.2 _ _ (.cl _ _ _ _)

theorem Owns.lt {m : Mem} {l : List Nat} {y : Local} {k i v : Nat} (h : LInv m l y) (ho : Owns y k i v) : k < m.last ∧ i < m.cap k := by
  cases ho with
  | rd c => exact ⟨h.1, h.2.2.1.1⟩
  | wr c => exact ⟨h.1, h.2.2.1.1⟩
  | cl c => exact ⟨h.1, h.2.2.1.1⟩

/-- Element `i` of the list is in the slot. -/
theorem Sh.ne_tomb {m : Mem} {l : List Nat} (h : Sh m l) {i : Nat} (hi : i < l.length) : cell m i ≠ .tomb := by
  rw [h.rel, ofList_lt hi]; simp

theorem Sh.ne_closed {m : Mem} {l : List Nat} (h : Sh m l) (i : Nat) : cell m i ≠ .closed := by
  rw [h.rel]; exact ofList_ne_closed l i

theorem cell_open {m : Mem} {i : Nat} (h : m.mem m.data i ≠ .closed) : cell m i = m.mem m.data i := by
  simp [cell, h]

theorem cell_closed {m : Mem} {i : Nat} (h : m.mem m.data i = .closed) : cell m i = m.mem (m.data + 1) i := by
  simp [cell, h]

theorem Sh.lt_cap {m : Mem} {l : List Nat} (h : Sh m l) {i : Nat} (hc : m.mem m.data i ≠ .tomb) : i < m.cap m.data := by
  by_cases hi : i < m.cap m.data
  · exact hi
  · exact absurd (h.outside i (by omega)).1 hc

/-- A copying thread writes to the next buffer. -/
theorem Sh.ahead {m : Mem} {l : List Nat} (h : Sh m l) {i w : Nat} (hl : m.last = m.data + 1) (hs : m.mem m.data i ≠ .closed)
    (ht : m.mem m.data i ≠ .tomb) : Sh (mput m (m.data + 1) i (.val w)) l := by
  have hcap := h.lt_cap ht
  have hd : ∀ j, (mput m (m.data + 1) i (.val w)).mem m.data j = m.mem m.data j := by
    intro j; rw [mput_eq, if_neg (by omega)]
  refine ⟨h.dl, h.ld, h.caps, h.pos, ?_, ?_, ?_, ?_, h.size, h.len, ?_, ?_⟩
  · intro k j hk hj
    rw [mput_eq, if_neg (by simp only [mput] at hk; omega)]
    exact h.past k j hk hj
  · intro j
    rw [mput_eq]
    split
    · simp
    · exact h.front j
  · intro k j hk
    rw [mput_eq, if_neg (by simp only [mput] at hk; omega)]
    exact h.free k j hk
  · intro j hj
    refine ⟨(hd j).trans (h.outside j hj).1, ?_⟩
    rw [mput_eq, if_neg (by simp only [mput] at hj ⊢; omega)]
    exact (h.outside j hj).2
  · intro j hj
    have hj' : m.mem m.data j = .tomb := (hd j).symm.trans hj
    rw [mput_eq, if_neg (by rintro ⟨_, rfl⟩; exact ht hj')]
    exact h.empty j hj'
  · intro j
    rw [← h.rel j]
    unfold cell
    have : (mput m (m.data + 1) i (.val w)).data = m.data := rfl
    rw [this, hd]
    by_cases hj : m.mem m.data j = .closed
    · rw [if_pos hj, if_pos hj, mput_eq, if_neg (by rintro ⟨_, rfl⟩; exact hs hj)]
    · rw [if_neg hj, if_neg hj]

/-- A copying thread closes a slot whose contents are in the next buffer. -/
theorem Sh.close {m : Mem} {l : List Nat} (h : Sh m l) {i : Nat} (hl : m.last = m.data + 1) (hs : m.mem m.data i ≠ .closed) (hi : i < m.cap m.data)
    (he : m.mem (m.data + 1) i = m.mem m.data i) : Sh (mput m m.data i .closed) l := by
  have hn : ∀ j, (mput m m.data i .closed).mem (m.data + 1) j = m.mem (m.data + 1) j := by
    intro j; rw [mput_eq, if_neg (by omega)]
  refine ⟨h.dl, h.ld, h.caps, h.pos, ?_, ?_, ?_, ?_, h.size, h.len, ?_, ?_⟩
  · intro k j hk hj
    rw [mput_eq]
    split
    · rfl
    · exact h.past k j hk hj
  · intro j
    have : (mput m m.data i .closed).last = m.data + 1 := hl
    rw [this, hn, ← hl]
    exact h.front j
  · intro k j hk
    rw [mput_eq, if_neg (by simp only [mput] at hk; omega)]
    exact h.free k j hk
  · intro j hj
    refine ⟨?_, (hn j).trans (h.outside j hj).2⟩
    rw [mput_eq, if_neg (by rintro ⟨_, rfl⟩; simp only [mput] at hj; omega)]
    exact (h.outside j hj).1
  · intro j hj
    rw [mput_eq] at hj
    split at hj
    · simp at hj
    · have : (mput m m.data i .closed).data = m.data := rfl
      rw [this, hn]
      exact h.empty j hj
  · intro j
    rw [← h.rel j]
    unfold cell
    have : (mput m m.data i .closed).data = m.data := rfl
    rw [this, hn, mput_eq]
    by_cases hj : j = i
    · subst hj
      simp [hs, he]
    · have : ¬ (m.data = m.data ∧ j = i) := fun h => hj h.2
      rw [if_neg this]

/-- The slot which holds element `i`. -/
structure Here (m : Mem) (k i : Nat) : Prop where
  nc : m.mem k i ≠ .closed
  now : k = m.data ∨ k = m.data + 1 ∧ m.mem m.data i = .closed

theorem Here.cell {m : Mem} {k i : Nat} (h : Here m k i) : Conc.cell m i = m.mem k i := by
  rcases h.now with rfl | ⟨rfl, hc⟩
  · exact cell_open h.nc
  · exact cell_closed hc

theorem At.here {m : Mem} {l : List Nat} {o : Op} {k : Nat} (hs : Sh m l) (h : At m l o k) (hc : m.mem k o.index ≠ .closed) : Here m k o.index := by
  refine ⟨hc, ?_⟩
  have h1 := hs.ld
  have h2 := h.le
  by_cases hk : k < m.data
  · exact absurd (hs.past k _ hk h.lt) hc
  · by_cases hk' : k = m.data
    · exact Or.inl hk'
    · exact Or.inr ⟨by omega, h.moved (by omega)⟩

/-- An element is written. -/
theorem Sh.write {m : Mem} {l l' : List Nat} (h : Sh m l) {k i w : Nat} (hh : Here m k i) (hi : i < m.cap m.data) (hlen : l'.length ≤ m.size)
    (hl : ∀ j, ofList l' j = if j = i then .val w else ofList l j) : Sh (mput m k i (.val w)) l' := by
  have hdata : (mput m k i (.val w)).data = m.data := rfl
  have hk : m.data ≤ k ∧ k ≤ m.data + 1 := by rcases hh.now with h | ⟨h, _⟩ <;> omega
  have hkl : k ≤ m.last := by
    rcases hh.now with h' | ⟨h', hc⟩
    · have := h.dl; omega
    · have := h.front i
      have h1 := h.dl
      by_cases hd : m.last = m.data
      · rw [hd] at this; exact absurd hc this
      · omega
  refine ⟨h.dl, h.ld, h.caps, h.pos, ?_, ?_, ?_, ?_, h.size, hlen, ?_, ?_⟩
  · intro k' j hk' hj
    rw [mput_eq, if_neg (by simp only [mput] at hk'; omega)]
    exact h.past k' j hk' hj
  · intro j
    rw [mput_eq]
    split
    · simp
    · exact h.front j
  · intro k' j hk'
    rw [mput_eq, if_neg (by simp only [mput] at hk'; omega)]
    exact h.free k' j hk'
  · intro j hj
    have : ¬ j = i := by simp only [mput] at hj; omega
    rw [mput_eq, mput_eq, if_neg (by simp [this]), if_neg (by simp [this])]
    exact h.outside j hj
  · intro j hj
    rw [hdata] at hj ⊢
    rw [mput_eq] at hj ⊢
    by_cases hc : m.data = k ∧ j = i
    · rw [if_pos hc] at hj; simp at hj
    · rw [if_neg hc] at hj
      have he := h.empty j hj
      rw [if_neg]
      · exact he
      · rintro ⟨h1, rfl⟩
        rcases hh.now with h' | ⟨_, h'⟩
        · omega
        · rw [h'] at hj; simp at hj
  · intro j
    rw [hl]
    by_cases hj : j = i
    · subst hj
      rw [if_pos rfl]
      unfold Conc.cell
      rw [hdata, mput_eq, mput_eq]
      rcases hh.now with rfl | ⟨rfl, hc⟩
      · simp
      · simp [hc]
    · rw [if_neg hj, ← h.rel j]
      unfold Conc.cell
      have hp : ∀ k', (mput m k i (.val w)).mem k' j = m.mem k' j := by intro k'; rw [mput_eq, if_neg (by simp [hj])]
      rw [hdata, hp, hp]

theorem unclosed_put {m : Mem} {k i : Nat} {x : Slot} (h : m.mem k i ≠ .closed) (hx : x ≠ .closed) (k' : Nat) :
    unclosed (mput m k i x) k' = unclosed m k' := by
  unfold unclosed
  apply sumTo_congr
  intro j _
  rw [mput_eq]
  split
  · next hj => simp [hj.1, hj.2, h]
  · rfl

theorem unclosed_close {m : Mem} {k i : Nat} (h : m.mem k i ≠ .closed) (hi : i < m.cap k) (k' : Nat) :
    unclosed (mput m k i .closed) k' + (if k = k' then 1 else 0) = unclosed m k' := by
  unfold unclosed
  have hc : (mput m k i .closed).cap = m.cap := rfl
  rw [hc]
  by_cases hk : k = k'
  · subst hk
    have hu := sumTo_upd (fun j => if m.mem k j = .closed then 0 else 1) (m.cap k) i 0 hi
    have he : sumTo (fun j => if (mput m k i .closed).mem k j = .closed then 0 else 1) (m.cap k) =
        sumTo (upd (fun j => if m.mem k j = .closed then 0 else 1) i 0) (m.cap k) := by
      apply sumTo_congr
      intro j _
      rw [mput_eq]
      simp only [upd]
      by_cases hj : j = i
      · simp [hj]
      · simp [hj]
    rw [he, if_pos rfl]
    simp only [h, if_false] at hu
    omega
  · rw [if_neg hk]
    apply sumTo_congr
    intro j _
    have : (mput m k i .closed).mem k' j = m.mem k' j := by rw [mput_eq, if_neg (by rintro ⟨h', _⟩; exact hk h'.symm)]
    rw [this]

end Verif.Conc
