import Verif.Conc.ArrayCopy

/-! Steps which change the size of the array keep the invariant. -/
namespace Verif.Conc

variable {n : Nat} {s : St} {l : List Nat} {t : Nat}

/-- A new buffer of capacity `c` is linked. -/
def mlink (m : Mem) (c : Nat) : Mem :=
  { m with cap := upd m.cap (m.last + 1) c, «open» := upd m.open (m.last + 1) c, last := m.last + 1 }

theorem mlink_cap (m : Mem) (c k : Nat) (h : k ≤ m.last) : (mlink m c).cap k = m.cap k := by
  simp only [mlink, upd]
  rw [if_neg (by omega)]

theorem mlink_cap_last (m : Mem) (c : Nat) : (mlink m c).cap (m.last + 1) = c := by
  simp [mlink, upd]

theorem Sh.link {m : Mem} (h : Sh m l) (hd : m.data = m.last) {c : Nat} (hc : m.cap m.data < c) : Sh (mlink m c) l := by
  refine ⟨?_, ?_, ?_, ?_, ?_, ?_, ?_, ?_, ?_, h.len, h.empty, h.rel⟩
  · show m.data ≤ m.last + 1; omega
  · show m.last + 1 ≤ m.data + 1; omega
  · intro k hk
    have hk : k < m.last + 1 := hk
    rw [mlink_cap m c k (by omega)]
    by_cases hl : k = m.last
    · rw [hl, mlink_cap_last, ← hd]; omega
    · rw [mlink_cap m c (k + 1) (by omega)]; exact h.caps k (by omega)
  · intro k h0 hk
    have hk : k ≤ m.last + 1 := hk
    by_cases hl : k = m.last + 1
    · rw [hl, mlink_cap_last]; omega
    · rw [mlink_cap m c k (by omega)]; exact h.pos k h0 (by omega)
  · intro k i hk hi
    have hk : k < m.data := hk
    rw [mlink_cap m c k (by omega)] at hi
    exact h.past k i hk hi
  · intro i
    show m.mem (m.last + 1) i ≠ _
    rw [h.free _ _ (by omega)]; simp
  · intro k i hk
    exact h.free k i (by have : m.last + 1 < k := hk; omega)
  · intro i hi
    have : (mlink m c).data = m.data := rfl
    rw [this, mlink_cap m c m.data (by omega)] at hi
    exact h.outside i hi
  · have : (mlink m c).data = m.data := rfl
    rw [this, mlink_cap m c m.data (by omega)]
    exact h.size

theorem LInv.link {m : Mem} {y : Local} (h : LInv m l y) (hdl : m.data ≤ m.last) (c : Nat) (hg : grower y = false) : LInv (mlink m c) l y := by
  have hlast : (mlink m c).last = m.last + 1 := rfl
  have hat : ∀ o k, o.isPush = false → At m l o k → At (mlink m c) l o k := by
    intro o k hp ha
    refine ⟨by rw [hlast]; have := ha.le; omega, by rw [mlink_cap m c k ha.le]; exact ha.lt, ha.moved, ?_⟩
    intro i v ho; subst ho; simp [Op.isPush] at hp
  cases y with
  | idle => trivial
  | size o => exact h
  | data o => exact ⟨h.1, by show o.index < (mlink m c).cap m.data; rw [mlink_cap m c _ hdl]; exact h.2⟩
  | acc o k => exact hat o k hg h
  | next o k => exact ⟨hat o k hg h.1, h.2⟩
  | swap o k cur => exact ⟨hat o k hg h.1, h.2⟩
  | copy c' k pc =>
    obtain ⟨h1, h2, h3, h4⟩ := h
    have hck := mlink_cap m c k (by omega)
    refine ⟨by rw [hlast]; omega, ?_, ?_, ?_⟩
    · cases c' with
      | op o => simp only [ContInv] at h2 ⊢; rw [hck]; exact h2
      | grow g a => simp [grower] at hg
    · cases pc with
      | start => trivial
      | rd i d => simp only [PcInv] at h3 ⊢; rw [hck]; exact h3
      | wr i d v => simp only [PcInv] at h3 ⊢; rw [hck]; exact h3
      | cl i v => simp only [PcInv] at h3 ⊢; rw [hck]; exact h3
      | chk i => simp only [PcInv] at h3 ⊢; rw [hck]; exact h3
      | dec i => simp only [PcInv] at h3 ⊢; rw [hck]; exact h3
      | fin => simp only [PcInv] at h3 ⊢; rw [hck]; exact h3
    · intro i v ho
      have := h4 i v ho
      exact ⟨this.now, this.src, this.dst⟩
  | grow g pc => simp [grower] at hg

theorem Inv.others (h : Inv n s l) (hg : grower (s.th t) = true) {t' : Nat} (hne : t' ≠ t) : grower (s.th t') = false := by
  have h2 := (h.busy t).mp hg
  by_cases hx : grower (s.th t') = true
  · have h1 := (h.busy t').mp hx
    rw [h1] at h2
    exact absurd (Option.some.inj h2) hne
  · simpa using hx

/-- Nobody copies the last buffer. -/
theorem Inv.pend_last (h : Inv n s l) (k : Nat) (hk : s.last ≤ k) : sumTo (fun t => pend k (s.th t)) n = 0 := by
  rw [← sumTo_const_zero n]
  apply sumTo_congr
  intro u _
  have hu := h.th u
  cases hy : s.th u with
  | copy c k' pc =>
    rw [hy] at hu
    have : k' < s.last := hu.1
    cases pc <;> first | rfl | (simp only [pend]; rw [if_neg (by omega)])
  | _ => rfl

theorem Inv.linked (h : Inv n s l) (c : Nat)
    (k : Nat) (hk : k ≤ s.last + 1) (pt : pend k (s.th t) = 0) :
    (mlink s.toMem c).open k + pend k (s.th t) = unclosed (mlink s.toMem c) k + sumTo (fun t => pend k (s.th t)) n := by
  rw [pt]
  by_cases hl : k = s.last + 1
  · rw [h.pend_last k (by omega)]
    subst hl
    have h1 : (mlink s.toMem c).open (s.last + 1) = c := by simp [mlink, upd]
    have h2 : unclosed (mlink s.toMem c) (s.last + 1) = c := by
      unfold unclosed
      have : (mlink s.toMem c).cap (s.last + 1) = c := mlink_cap_last s.toMem c
      rw [this]
      rw [sumTo_congr (g := fun _ => 1)]
      · exact sumTo_const_one c
      · intro i _
        show (if s.mem (s.last + 1) i = .closed then 0 else 1) = 1
        rw [h.sh.free _ _ (by show s.last < s.last + 1; omega)]
        simp
    rw [h1, h2]
  · have h1 : (mlink s.toMem c).open k = s.open k := by
      show upd s.open (s.last + 1) c k = _
      simp [upd, hl]
    have h2 : unclosed (mlink s.toMem c) k = unclosed s.toMem k := by
      unfold unclosed
      rw [mlink_cap s.toMem c k (by show k ≤ s.last; omega)]
      rfl
    rw [h1, h2]
    exact h.count k (by omega)

theorem good_link (h : Inv n s l) (ht : t < n) (ch : Choice) (g : Grow) (a c k : Nat) (hl : s.th t = .grow g (.link a c k)) :
    Good n l (growStep s t g (.link a c k) ch) := by
  have hi := h.th t
  rw [hl] at hi
  obtain ⟨hd, hlen, hsz, hca, hac, hk⟩ := hi
  have hd : s.data = s.last := hd
  have hk : k = s.data := hk
  have hca : s.cap s.data < a := hca
  subst hk
  have hg : grower (s.th t) = true := by rw [hl]; rfl
  have hpz : ∀ k', pend k' (s.th t) = 0 := by intro k'; rw [hl]; rfl
  unfold growStep
  dsimp only
  split
  · next h0 =>
    have hdz : s.data = 0 := by
      by_cases hz : s.data = 0
      · exact hz
      · have := h.sh.pos s.data (by omega) h.sh.dl
        have : 0 < s.cap s.data := this
        omega
    have hlz : s.last = 0 := by omega
    have hnil : l.length = 0 := by
      have h1 : l.length ≤ s.size := h.sh.len
      have h2 : s.size ≤ s.cap s.data := h.sh.size
      omega
    have hm : ∀ i, s.mem s.data i = .tomb := fun i => (h.sh.outside i (by show s.cap s.data ≤ i; omega)).1
    have shl := h.sh.link hd (c := c) (by show s.cap s.data < c; omega)
    simp only [Good]
    refine h.move (s1 := { s with cap := upd s.cap (s.last + 1) c, «open» := upd s.open (s.last + 1) c, last := s.last + 1, data := s.last + 1 })
      t ht _ rfl rfl ?_ ?_ ?_ ?_ rfl (by rw [hl]; rfl) (fun _ => ⟨rfl, hlen⟩) ?_
    · have := shl.advance (by show s.last + 1 = s.data + 1; omega) (by
        intro i hi
        have : i < (mlink s.toMem c).cap s.data := hi
        rw [mlink_cap s.toMem c s.data (by show s.data ≤ s.last; omega)] at this
        have : i < s.cap s.data := this
        omega)
      have e : (mlink s.toMem c).data + 1 = s.last + 1 := by show s.data + 1 = _; omega
      rw [e] at this
      exact this
    · intro t' hne hL
      have hng := h.others hg hne
      cases hy : s.th t' with
      | idle => trivial
      | size o => rw [hy] at hL; exact hL
      | data o =>
        rw [hy] at hL
        have : o.index < s.cap s.data := hL.2
        omega
      | acc o k =>
        rw [hy] at hL
        have h1 : k ≤ s.last := hL.le
        have h2 : o.index < s.cap k := hL.lt
        have : k = s.data := by omega
        rw [this] at h2; omega
      | next o k =>
        rw [hy] at hL
        have h1 : k ≤ s.last := hL.1.le
        have h2 : o.index < s.cap k := hL.1.lt
        have : k = s.data := by omega
        rw [this] at h2; omega
      | swap o k cur =>
        rw [hy] at hL
        have h1 : k ≤ s.last := hL.1.le
        have h2 : o.index < s.cap k := hL.1.lt
        have : k = s.data := by omega
        rw [this] at h2; omega
      | copy c' k' pc =>
        rw [hy] at hL
        have : k' < s.last := hL.1
        omega
      | grow g' pc => rw [hy] at hng; simp [grower] at hng
    · exact ⟨rfl, hlen, hsz⟩
    · intro t' k' i v v' _ _ ho; cases ho
    · intro k' hk'
      have := h.linked c k' hk' (hpz k')
      have e : pend k' (.grow g (.check a)) = 0 := rfl
      rw [e]
      exact this
  · next h0 =>
    rw [if_pos hd.symm]
    simp only [Good]
    refine h.move (s1 := { s with cap := upd s.cap (s.last + 1) c, «open» := upd s.open (s.last + 1) c, last := s.last + 1 })
      t ht _ rfl rfl (h.sh.link hd (by show s.cap s.data < c; omega)) ?_ ?_ ?_ rfl (by rw [hl]; rfl) ?_ ?_
    · intro t' hne hL
      exact hL.link h.sh.dl c (h.others hg hne)
    · refine ⟨by show s.data < s.last + 1; omega, ⟨?_, by show s.last + 1 = s.data + 1; omega, hlen, hsz⟩, trivial, by intro _ _ ho; cases ho⟩
      show 0 < (mlink s.toMem c).cap s.data
      rw [mlink_cap s.toMem c s.data h.sh.dl]
      show 0 < s.cap s.data
      omega
    · intro t' k' i v v' _ _ ho; cases ho
    · intro hb
      have := (h.busy t).mp hg
      have hb : s.busy = none := hb
      rw [hb] at this; simp at this
    · intro k' hk'
      have := h.linked c k' hk' (hpz k')
      have e : pend k' (.copy (.grow g a) s.data .start) = 0 := rfl
      rw [e]
      exact this

/-- A new size. -/
theorem Sh.resize {m : Mem} (h : Sh m l) {z : Nat} (h1 : l.length ≤ z) (h2 : z ≤ m.cap m.data) : Sh { m with size := z } l :=
  ⟨h.dl, h.ld, h.caps, h.pos, h.past, h.front, h.free, h.outside, h2, h1, h.empty, h.rel⟩

theorem LInv.resize {m : Mem} {y : Local} (h : LInv m l y) (z : Nat) (hg : grower y = false) : LInv { m with size := z } l y := by
  have hat : ∀ o k, o.isPush = false → At m l o k → At { m with size := z } l o k := by
    intro o k hp ha
    refine ⟨ha.le, ha.lt, ha.moved, ?_⟩
    intro i v ho; subst ho; simp [Op.isPush] at hp
  cases y with
  | idle => trivial
  | size o => exact h
  | data o => exact h
  | acc o k => exact hat o k hg h
  | next o k => exact ⟨hat o k hg h.1, h.2⟩
  | swap o k cur => exact ⟨hat o k hg h.1, h.2⟩
  | copy c' k pc =>
    obtain ⟨h1, h2, h3, h4⟩ := h
    refine ⟨h1, ?_, ?_, ?_⟩
    · cases c' with
      | op o => exact h2
      | grow g a => simp [grower] at hg
    · cases pc <;> exact h3
    · intro i v ho
      have := h4 i v ho
      exact ⟨this.now, this.src, this.dst⟩
  | grow g pc => simp [grower] at hg

/-- Changing the size only. -/
theorem Inv.resize (h : Inv n s l) (ht : t < n) (g : Grow) (pc : GrowPc) (hl : s.th t = .grow g pc) (z : Nat) (x : Local) (h1 : l.length ≤ z)
    (h2 : z ≤ s.cap s.data) (hx : LInv { s.toMem with size := z } l x) (hgx : grower x = true) (hpx : ∀ k, pend k x = 0) (hox : ∀ k i v, ¬ Owns x k i v) :
    Inv n ({ s with size := z }.goto t x) l := by
  have hg : grower (s.th t) = true := by rw [hl]; rfl
  refine h.move (s1 := { s with size := z }) t ht x rfl rfl (h.sh.resize h1 h2) ?_ hx ?_ rfl (by rw [hg, hgx]) ?_ ?_
  · intro t' hne hL
    exact hL.resize z (h.others hg hne)
  · intro t' k i v v' _ _ ho; exact hox k i v' ho
  · intro hb
    have := (h.busy t).mp hg
    have hb : s.busy = none := hb
    rw [hb] at this; simp at this
  · intro k hk
    have := h.count k hk
    have e : pend k (s.th t) = 0 := by rw [hl]; rfl
    rw [e, hpx]
    exact this

theorem good_fill (h : Inv n s l) (ht : t < n) (ch : Choice) (g : Grow) (k j z : Nat) (hl : s.th t = .grow g (.fill k j z)) :
    Good n l (growStep s t g (.fill k j z) ch) := by
  have hi := h.th t
  rw [hl] at hi
  obtain ⟨hd, hk, hlen, hjz, hsz⟩ := hi
  have hd : s.data = s.last := hd
  have hk : k = s.data := hk
  have hsz : s.size = z := hsz
  have hscap : s.size ≤ s.cap s.data := h.sh.size
  subst hk
  have hg : grower (s.th t) = true := by rw [hl]; rfl
  have hpz : ∀ k', pend k' (s.th t) = 0 := by intro k'; rw [hl]; rfl
  have hnc : s.mem s.data j ≠ .closed := by rw [hd]; exact h.sh.front j
  have hh : Here s.toMem s.data j := ⟨hnc, Or.inl rfl⟩
  subst hlen
  obtain ⟨p1, p2, p3⟩ := h.write (t := t) (l' := l ++ [0]) (w := 0) hh (by show l.length < s.cap s.data; omega) (fun i => ofList_append l 0 i) (by simp)
    (by simp; omega) hpz (by rw [hg]; simp)
  unfold growStep
  dsimp only
  rw [if_pos (by omega)]
  split
  · next hz =>
    refine ⟨l ++ [0], .fill l, ?_⟩
    refine h.finish (s1 := s.put s.data l.length (.val 0)) t ht rfl rfl p1 p2 rfl ?_ p3
    intro _
    exact ⟨hd, by show (l ++ [0]).length = s.size; simp; omega⟩
  · next hz =>
    refine ⟨l ++ [0], .fill l, ?_⟩
    refine h.move (s1 := s.put s.data l.length (.val 0)) t ht _ rfl rfl p1 p2 ?_ ?_ rfl (by rw [hl]; rfl) ?_ ?_
    · exact ⟨hd, rfl, by simp, by omega, hsz⟩
    · intro t' k' i v v' _ _ ho; cases ho
    · intro hb
      have := (h.busy t).mp hg
      have hb : s.busy = none := hb
      rw [hb] at this; simp at this
    · intro k' hk'
      have := p3 k' hk'
      rw [show pend k' (.grow g (.fill s.data (l.length + 1) z)) = 0 from rfl]
      exact this

theorem good_grow (h : Inv n s l) (ht : t < n) (ch : Choice) (g : Grow) (pc : GrowPc) (hl : s.th t = .grow g pc) :
    Good n l (growStep s t g pc ch) := by
  have hi := h.th t
  rw [hl] at hi
  have hd : s.data = s.last := hi.1
  have hgi := hi.2
  have hpz : ∀ k', pend k' (s.th t) = 0 := by intro k'; rw [hl]; rfl
  have go : ∀ pc', GrowInv s.toMem l g pc' → Inv n (s.goto t (.grow g pc')) l := by
    intro pc' hx
    exact h.local t ht _ ⟨hd, hx⟩ (by intro _ _ _ ho; cases ho) (by rw [hl]; rfl) (by intro k'; rw [hpz]; rfl)
  have hs : s.size ≤ s.cap s.data := h.sh.size
  cases pc with
  | begin =>
    obtain ⟨h1, h2⟩ := hgi
    unfold growStep growBegin
    dsimp only
    refine go _ ?_
    cases g with
    | reserve a => exact ⟨h1, by simp⟩
    | resize a =>
      dsimp only
      split
      · exact ⟨h1, by intro m hm; cases hm; exact ⟨h2 a rfl, Nat.le_max_right _ _⟩⟩
      · next hc => exact ⟨h1, rfl, by intro m hm; cases hm; exact ⟨h2 a rfl, by show a ≤ s.cap s.data; omega⟩⟩
    | push v => exact ⟨h1, rfl, by simp⟩
  | check a =>
    obtain ⟨h1, h2⟩ := hgi
    unfold growStep
    dsimp only
    split
    · next hc => exact go _ ⟨h1, h2, hc⟩
    · next hc => exact go _ ⟨h1, fun m hm => ⟨(h2 m hm).1, by have := (h2 m hm).2; show m ≤ s.cap s.data; omega⟩⟩
  | alloc a =>
    obtain ⟨h1, h2, h3⟩ := hgi
    unfold growStep
    dsimp only
    cases ch with
    | cap c =>
      dsimp only
      split
      · next hc => exact go _ ⟨h1, h2, h3, hc⟩
      · trivial
    | fail => exact h.quit t ht hpz (fun _ => ⟨hd, h1⟩)
    | go => trivial
    | op o => trivial
    | grow g => trivial
  | old a c =>
    obtain ⟨h1, h2, h3, h4⟩ := hgi
    exact go _ ⟨h1, h2, h3, h4, rfl⟩
  | link a c k => exact good_link h ht ch g a c k hl
  | done =>
    obtain ⟨h1, h2⟩ := hgi
    unfold growStep
    dsimp only
    cases g with
    | reserve a => exact h.quit t ht hpz (fun _ => ⟨hd, h1⟩)
    | resize a => exact go _ ⟨h1, rfl, h2⟩
    | push v => exact go _ ⟨h1, rfl, by simp⟩
  | len k =>
    obtain ⟨h1, h2, h3⟩ := hgi
    unfold growStep
    dsimp only
    split
    · exact go _ ⟨h1, fun m hm => absurd hm (h3 m)⟩
    · next hc => exact go _ ⟨h1, h2, by show s.size < s.cap k; omega, h3⟩
  | inc k len =>
    obtain ⟨h1, h2, h3, h4⟩ := hgi
    have h2 : k = s.data := h2
    subst h2
    have h3 : len < s.cap s.data := h3
    have h1 : l.length = s.size := h1
    unfold growStep
    dsimp only
    cases g with
    | push v =>
      dsimp only
      split
      · next hc =>
        obtain ⟨hc, _⟩ := hc
        subst hc
        refine h.resize ht _ _ hl (s.size + 1) _ (by omega) (by omega) ?_ rfl (by intro _; rfl) (by intro _ _ _ ho; cases ho)
        refine ⟨h.sh.dl, h3, ?_, ?_⟩
        · intro hlt
          have : s.data < s.data := hlt
          omega
        · intro i w ho
          cases ho
          exact ⟨hd, h1, rfl⟩
      · exact go _ ⟨h1, rfl, h4⟩
    | reserve a => trivial
    | resize a => trivial
  | swap k =>
    obtain ⟨h1, h2, h3⟩ := hgi
    have h2 : k = s.data := h2
    subst h2
    have h1 : l.length = s.size := h1
    unfold growStep
    dsimp only
    cases g with
    | push v => trivial
    | reserve a => trivial
    | resize a =>
      have h4 : s.size ≤ a := (h3 a rfl).1
      have h5 : a ≤ s.cap s.data := (h3 a rfl).2
      dsimp only
      split
      · next hc =>
        refine h.resize ht _ _ hl a _ (by omega) h5 ?_ rfl (by intro _; rfl) (by intro _ _ _ ho; cases ho)
        exact ⟨hd, rfl, h1, hc, rfl⟩
      · split
        · omega
        · exact h.quit t ht hpz (fun _ => ⟨hd, h1⟩)
  | fill k j z => exact good_fill h ht ch g k j z hl
  | trunc k j z => exact hgi.elim

/-- Every step keeps the invariant, and its event is an operation on the list. -/
theorem step_good (h : Inv n s l) (ht : t < n) (ch : Choice) : Good n l (step ⟨true, true⟩ s t ch) := by
  have hi := h.th t
  cases hl : s.th t with
  | idle =>
    have hpz : ∀ k', pend k' (s.th t) = 0 := by intro k'; rw [hl]; rfl
    unfold step
    rw [hl]
    dsimp only
    cases ch with
    | go => trivial
    | fail => trivial
    | cap c => trivial
    | op o =>
      cases o with
      | push i v => trivial
      | read i => exact h.local t ht _ rfl (by intro _ _ _ ho; cases ho) (by rw [hl]; rfl) (by intro k'; rw [hpz]; rfl)
      | write i v => exact h.local t ht _ rfl (by intro _ _ _ ho; cases ho) (by rw [hl]; rfl) (by intro k'; rw [hpz]; rfl)
      | cas i a b => exact h.local t ht _ rfl (by intro _ _ _ ho; cases ho) (by rw [hl]; rfl) (by intro k'; rw [hpz]; rfl)
    | grow g =>
      dsimp only
      split
      · next ha =>
        simp only [allowed, Bool.not_true, Bool.false_or, Bool.and_eq_true, Option.isNone_iff_eq_none] at ha
        obtain ⟨hb, hr⟩ := ha
        obtain ⟨hd, hlen⟩ := h.free hb
        simp only [Good]
        have hn : ∀ u, ({ s with busy := some t }.goto t (.grow g .begin)).th u = if u = t then .grow g .begin else s.th u := by intro u; rfl
        refine ⟨h.sh, ?_, ?_, ?_, ?_, ?_⟩
        · intro u
          rw [hn]
          split
          · refine ⟨hd, hlen, ?_⟩
            intro m hm
            subst hm
            have : s.size ≤ m := by simpa using hr
            exact this
          · exact h.th u
        · intro u u' k i v v' h1 h2
          rw [hn] at h1 h2
          split at h1
          · cases h1
          · split at h2
            · cases h2
            · exact h.uniq u u' k i v v' h1 h2
        · intro u
          rw [hn]
          show _ ↔ some t = some u
          split
          · next hu => subst hu; simp [grower]
          · next hu =>
            have := h.busy u
            rw [hb] at this
            constructor
            · intro hgu; exact absurd (this.mp hgu) (by simp)
            · intro he; exact absurd (Option.some.inj he).symm hu
        · intro hbz
          exact ⟨hd, hlen⟩
        · intro k hk
          have := h.count k hk
          have he : sumTo (fun u => pend k (({ s with busy := some t }.goto t (.grow g .begin)).th u)) n = sumTo (fun u => pend k (s.th u)) n := by
            apply sumTo_congr
            intro u _
            rw [hn]
            split
            · next hu => subst hu; rw [hpz]; rfl
            · rfl
          rw [he]
          exact this
      · trivial
  | size o =>
    rw [hl] at hi
    have hi : o.isPush = false := hi
    have hpz : ∀ k', pend k' (s.th t) = 0 := by intro k'; rw [hl]; rfl
    unfold step
    rw [hl]
    dsimp only
    split
    · next hc =>
      have hs : s.size ≤ s.cap s.data := h.sh.size
      exact h.local t ht _ ⟨hi, by show o.index < s.cap s.data; omega⟩ (by intro _ _ _ ho; cases ho) (by rw [hl]; rfl) (by intro k'; rw [hpz]; rfl)
    · next hc =>
      have hs : l.length ≤ s.size := h.sh.len
      exact ⟨l, .range l _ (by omega), h.quit t ht hpz (by rw [hl]; simp [grower])⟩
  | data o =>
    rw [hl] at hi
    have hpz : ∀ k', pend k' (s.th t) = 0 := by intro k'; rw [hl]; rfl
    unfold step
    rw [hl]
    dsimp only
    refine h.local t ht _ ⟨h.sh.dl, hi.2, ?_, ?_⟩ (by intro _ _ _ ho; cases ho) (by rw [hl]; exact hi.1) (by intro k'; rw [hpz]; rfl)
    · intro hlt
      have : s.data < s.data := hlt
      omega
    · intro i v ho; have := hi.1; subst ho; simp [Op.isPush] at this
  | acc o k => unfold step; rw [hl]; exact good_acc h ht o k hl
  | next o k => exact good_next h ht o k _ ch hl
  | swap o k cur => exact good_swap h ht o k cur ch _ hl
  | copy c k pc =>
    unfold step
    rw [hl]
    dsimp only
    cases pc with
    | start => exact good_start h ht ch hl
    | rd i d => exact good_rd h ht ch i d hl
    | wr i d v => exact good_wr h ht ch i d v hl
    | cl i v => exact good_cl h ht ch i v hl
    | chk i => exact good_chk h ht ch i hl
    | dec i => exact good_dec h ht ch i hl
    | fin => exact good_fin h ht ch hl
  | grow g pc => unfold step; rw [hl]; exact good_grow h ht ch g pc hl

theorem fresh_inv (l : List Nat) (c : Nat) (hc : l.length ≤ c) (n : Nat) : Inv n (fresh l c) l := by
  have hm : ∀ i, (fresh l c).mem 0 i = ofList l i := by intro i; rfl
  have hm1 : ∀ k i, 0 < k → (fresh l c).mem k i = .tomb := by
    intro k i hk
    simp only [fresh]
    rw [if_neg (by omega)]
  refine ⟨⟨Nat.le_refl _, by simp [fresh], ?_, ?_, ?_, ?_, ?_, ?_, ?_, ?_, ?_, ?_⟩, fun _ => trivial, ?_, ?_, fun _ => ⟨rfl, rfl⟩, ?_⟩
  · intro k hk; simp [fresh] at hk
  · intro k h0 hk; simp [fresh] at hk; omega
  · intro k i hk; simp [fresh] at hk
  · intro i; rw [show (fresh l c).toMem.mem (fresh l c).toMem.last i = ofList l i from rfl]; exact ofList_ne_closed l i
  · intro k i hk; exact hm1 k i hk
  · intro i hi
    have hi : c ≤ i := by simpa [fresh] using hi
    exact ⟨(hm i).trans (ofList_ge (by omega)), hm1 1 i (by omega)⟩
  · simpa [fresh] using hc
  · exact Nat.le_refl _
  · intro i _; exact hm1 1 i (by omega)
  · intro i
    rw [cell_open]
    · exact hm i
    · rw [show (fresh l c).toMem.mem (fresh l c).toMem.data i = ofList l i from rfl]; exact ofList_ne_closed l i
  · intro t t' k i v v' h; cases h
  · intro t; simp [fresh, grower]
  · intro k hk
    have hk : k = 0 := by simpa [fresh] using hk
    subst hk
    have h1 : sumTo (fun t => pend 0 ((fresh l c).th t)) n = 0 := sumTo_const_zero n
    rw [h1]
    show c = sumTo (fun i => if ofList l i = .closed then 0 else 1) c + 0
    rw [sumTo_congr (g := fun _ => 1) (fun i _ => by simp [ofList_ne_closed]), sumTo_const_one]
    rfl

end Verif.Conc
