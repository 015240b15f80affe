import Verif.Conc.ObjectStep

/-!
Steps of `set_property` which change the table, and linking of a new table.
-/
namespace Verif.PropTab
open Verif.Conc (upd sumTo sumTo_congr sumTo_upd sumTo_zero pend_le)

theorem unclosed_congr {s s' : Mem} {k : Nat} (hc : s'.cap k = s.cap k) (h : ∀ p, s'.val k p = .closed ↔ s.val k p = .closed) :
    unclosed s' k = unclosed s k := by
  unfold unclosed
  rw [hc]
  apply sumTo_congr
  intro i _
  by_cases hv : s.val k i = .closed
  · rw [if_pos hv, if_pos ((h i).mpr hv)]
  · rw [if_neg hv, if_neg (fun hh => hv ((h i).mp hh))]

theorem moved_mono {s s' : Mem} {k : Nat} (hl : s'.last = s.last) (hk : ∀ j p, s.key j p = some k → s'.key j p = some k)
    (hv : ∀ j p, s.key j p = some k → s'.val j p = .closed → s.val j p = .closed) (h : moved s' k) : moved s k := by
  intro j q h1 h2
  exact hv j q h2 (h j q (by rw [hl]; exact h1) (hk j q h2))

section
variable {r : Rules} {n : Nat} {s : St} {a a' : Abs} {g g' : Nat → Option Nat} {t : Nat}

theorem Inv.movePlain (h : Inv r n s a g) (ht : t < n) {x : Local} (s1 : St) (h1 : plain (s.th t) = true) (h2 : plain x = true) (hth : s1.th = s.th)
    (hlast : s1.last = s.last) (hdata : s1.data = s.data) (hcap : s1.cap = s.cap) (hopen : s1.open = s.open) (hact : s1.active = s.active)
    (hcl : ∀ j p, s1.val j p = .closed ↔ s.val j p = .closed) (hres : ∀ j p, s1.val j p = .reserved → s.val j p = .reserved)
    (ext : Ext s (s1.goto t x) a a' t) (keeps : Keeps s (s1.goto t x) g g' t) (sh : Sh r s1.toMem a' g') (hx : LInv r (s1.goto t x) a' g' t x) : Inv r n (s1.goto t x) a' g' := by
  have hn : ∀ u, (s1.goto t x).th u = if u = t then x else s.th u := by intro u; simp [St.goto, upd, hth]
  refine h.move (s1 := s1) t ht x hth rfl ext keeps sh hx ?_ ?_ ?_ ?_ ?_ ?_
  · intro i hi
    rw [hlast, hdata] at hi
    exact (h.done i hi).keep hth (by rw [hcap]) (fun p hp => (hcl i p).mpr hp) (plain_hd h2 i)
  · intro j p hv
    obtain ⟨k, u, e1, e2, e3⟩ := h.res j p (hres j p hv)
    refine ⟨k, u, e1, by rw [hlast]; exact e2, ?_⟩
    rw [hn]
    split
    · next he => subst he; exact (plain_owns h1 k p e3).elim
    · exact e3
  · intro u k p _ _ ho
    exact plain_owns h2 k p ho
  · intro k hk
    rw [plain_pend h1, plain_pend h2, hopen, unclosed_congr (by rw [hcap]) (hcl k)]
    have := h.opens k (by omega)
    omega
  · intro k hk
    rw [plain_counted h1, plain_counted h2, hact]
    have := h.actives k (by omega)
    omega
  · intro k i hi hc
    rw [hcap] at hi
    rcases h.started k i hi ((hcl k i).mp hc) with e | ⟨u, hu⟩
    · refine Or.inl (fun p hp => (hcl k p).mpr (e p ?_))
      rw [← hcap]; exact hp
    · refine Or.inr ⟨u, ?_⟩
      rw [hn]
      split
      · next he => subst he; rw [plain_counted h1] at hu; cases hu
      · exact hu

/-- Keys added to a table. -/
structure Adds (s s1 : Mem) (j p k : Nat) : Prop where
  last : s1.last = s.last
  data : s1.data = s.data
  cap : s1.cap = s.cap
  val : s1.val = s.val
  key : s1.key = upd2 s.key j p (some k)
  was : s.key j p = none

theorem Adds.mono {m m1 : Mem} {j p k : Nat} (e : Adds m m1 j p k) {i q x : Nat} (h : m.key i q = some x) : m1.key i q = some x := by
  rw [e.key, upd2_eq]
  split
  · next hh => rw [hh.1, hh.2, e.was] at h; cases h
  · exact h

theorem Adds.cases {m m1 : Mem} {j p k : Nat} (e : Adds m m1 j p k) {i q x : Nat} (h : m1.key i q = some x) :
    m.key i q = some x ∨ (i = j ∧ q = p ∧ x = k) := by
  rw [e.key, upd2_eq] at h
  split at h
  · next hh => exact Or.inr ⟨hh.1, hh.2, (Option.some.inj h).symm⟩
  · exact Or.inl h

theorem Adds.see {m m1 : Mem} {j p k : Nat} (e : Adds m m1 j p k) {i x c : Nat} (h : seen r m i x c) : seen r m1 i x c := by
  intro b hb
  obtain ⟨y, hy, hne⟩ := h b hb
  refine ⟨y, ?_, hne⟩
  have : slot r m1 i x b = slot r m i x b := by simp only [slot]; rw [e.cap]
  rw [this]
  exact e.mono hy

theorem Adds.ext (_ : Inv r n s a g) {s1 : St} {x : Local} {j p k : Nat} (e : Adds s.toMem s1.toMem j p k) (hth : s1.th = s.th)
    (hd : ∀ k, dang k x = true → ¬ Done s k) :
    Ext s (s1.goto t x) a a t where
  last := Nat.le_of_eq e.last.symm
  data := Nat.le_of_eq e.data.symm
  cap := fun i _ => by show s1.cap i = _; rw [e.cap]
  key := fun i q y hy => e.mono hy
  closed := fun i q hv => by show s1.val i q = _; rw [e.val]; exact hv
  done := fun i _ hi => hi.keep hth (by rw [e.cap]) (fun q hq => by rw [e.val]; exact hq) (hd i)
  op := fun _ _ => rfl
  gone := fun _ _ h => h
  over := fun _ _ h => h
  live := fun m q y h1 h2 => Or.inr ⟨m, q, Nat.le_refl _, e.mono h1, by show live (s1.val m q) = true; rw [e.val]; exact h2, fun i h3 h4 => by omega⟩
  stay := fun i q y _ _ _ => Or.inl (by show s1.val i q = _; rw [e.val])

/-- A key is added where it was looked for. -/
theorem Adds.sh {m m1 : Mem} (h : Sh r m a g) {j k c : Nat} (e : Adds m m1 j (slot r m j k c) k) (hj : j ≤ m.last) (hs : seen r m j k c)
    (hsub : ∀ i, i + 1 = j → m.data ≤ i → has m i k)
    (h2 : m.val j (slot r m j k c) = .tomb → (j = m.last → moved m k) → a.map k = none)
    (hup : m.val j (slot r m j k c) ≠ .closed → j < m.last → ¬ has m (j + 1) k)
    (hdown : ∀ i q, i + 1 = j → m.key i q = some k → m.val i q ≠ .closed → m.val j (slot r m j k c) = .tomb) : Sh r m1 a g := by
  have hn : ¬ has m j k := h.not_has hs e.was
  have nl : live (m.val j (slot r m j k c)) = false := by
    cases hl : live (m.val j (slot r m j k c))
    · rfl
    · obtain ⟨y, hy⟩ := h.used _ _ hl
      rw [e.was] at hy; cases hy
  have hslot : ∀ i x b, slot r m1 i x b = slot r m i x b := fun i x b => by simp only [slot]; rw [e.cap]
  have hmv : ∀ x, moved m1 x → moved m x := fun x => moved_mono e.last (fun i q hh => e.mono hh) (fun i q _ hv => by rw [e.val] at hv; exact hv)
  refine ⟨by rw [e.last, e.data]; exact h.dl, by rw [e.last, e.cap]; exact h.pos, ?_, ?_, ?_, by rw [e.last, e.val]; exact h.front, ?_, ?_, ?_, ?_, ?_, ?_, h.gone⟩
  · intro i q hi
    rw [e.last, e.cap] at hi
    have hf := h.free i q hi
    rw [e.val, e.key, upd2_ne]
    · exact hf
    · rintro ⟨h1, h2⟩
      have := h.slot_lt hj k c
      subst h1 h2
      omega
  · intro i q y hy
    rcases e.cases hy with hy | ⟨h1, h2, h3⟩
    · obtain ⟨b, h1, h2⟩ := h.path i q y hy
      exact ⟨b, by rw [hslot]; exact h1, e.see h2⟩
    · subst h1 h2 h3
      exact ⟨c, (hslot _ _ _).symm, e.see hs⟩
  · intro i q hl
    rw [e.val] at hl
    obtain ⟨y, hy⟩ := h.used i q hl
    exact ⟨y, e.mono hy⟩
  · intro i y h1 h3 h4
    rw [e.data] at h1
    rw [e.last] at h3
    obtain ⟨q, hq⟩ := h4
    rcases e.cases hq with hq | ⟨e1, e2, e3⟩
    · obtain ⟨q', hq'⟩ := h.sub i y h1 h3 ⟨q, hq⟩
      exact ⟨q', e.mono hq'⟩
    · subst e3
      obtain ⟨q', hq'⟩ := hsub i e1 h1
      exact ⟨q', e.mono hq'⟩
  · intro i q y v h1 h3
    rw [e.val] at h3
    rcases e.cases h1 with h1 | ⟨e1, e2, e3⟩
    · exact h.r1 i q y v h1 h3
    · subst e1 e2
      rw [h3] at nl; cases nl
  · intro i q y h1 h3 h4
    rw [e.val] at h3
    rw [e.last] at h4
    rcases e.cases h1 with h1 | ⟨e1, e2, e3⟩
    · exact h.r2 i q y h1 h3 (fun hi => hmv y (h4 hi))
    · subst e1 e2 e3
      exact h2 h3 (fun hi => hmv _ (h4 hi))
  · intro q y h1 h3 h4
    rw [e.val, e.last] at h3
    rw [e.last] at h1
    rcases e.cases h1 with h1 | ⟨e1, e2, e3⟩
    · exact h.r3 q y h1 h3 (hmv y h4)
    · subst e2
      rw [e1] at h3
      rw [h3] at nl; cases nl
  · intro y v hy
    obtain ⟨i, q, h1, h3⟩ := h.r4 y v hy
    exact ⟨i, q, e.mono h1, by rw [e.val]; exact h3⟩
  · intro i q q' y h1 h3 h4 h5
    rw [e.last] at h1
    rw [e.val] at h4 ⊢
    rcases e.cases h3 with h3 | ⟨e1, e2, e3⟩
    · rcases e.cases h5 with h5 | ⟨e1, e2, e3⟩
      · exact h.one i q q' y h1 h3 h4 h5
      · subst e2 e3
        rw [e1]
        exact Or.inl (hdown i q e1 h3 h4)
    · subst e1 e2 e3
      rcases e.cases h5 with h5 | ⟨e1, e2, e3⟩
      · exact (hup h4 h1 ⟨q', h5⟩).elim
      · omega

theorem good_claim (h : Inv r n s a g) (ht : t < n) {k v j m : Nat} (hl : s.th t = .key (.set k v) j m)
    (hk : s.key j (slot r s.toMem j k m) = none) :
    Good r n a (.ok ({ s with key := upd2 s.key j (slot r s.toMem j k m) (some k) }.goto t (.hash (.set k v) j m)) none) := by
  have hi := h.th t
  rw [hl] at hi
  obtain ⟨h1, h2⟩ := hi
  have e : Adds s.toMem ({ s with key := upd2 s.key j (slot r s.toMem j k m) (some k) } : St).toMem j (slot r s.toMem j k m) k :=
    ⟨rfl, rfl, rfl, rfl, rfl, hk⟩
  have hx : plain (.hash (.set k v) j m) = true := rfl
  have hn : ¬ has s.toMem j k := h.sh.not_has h2 hk
  have ext := Adds.ext h (t := t) (x := .hash (.set k v) j m) e rfl (fun i => plain_hd hx i)
  have up : s.val j (slot r s.toMem j k m) ≠ .closed → j < s.last → ¬ has s.toMem (j + 1) k := by
    intro hv hj hh
    by_cases hd : s.data ≤ j
    · exact hn (h.sh.sub j k hd hj hh)
    · exact hv ((h.done j (Or.inr (by omega))).1 _ (h.sh.slot_lt h1.le _ _))
  have sh := e.sh h.sh h1.le h2 (fun i hi hd => h1.chain rfl i hd (by omega))
    (by
      intro hv _
      cases hm : a.map k with
      | none => rfl
      | some x =>
        exfalso
        obtain ⟨b, q, hb, hlv⟩ := h.sh.r4 k x hm
        have hge := h.live_ge h1.past hb hlv
        have hle := (h.sh.lt hb).1
        by_cases hbj : b = j
        · subst hbj; exact hn ⟨q, hb⟩
        · have hlast := h.level_open (k := j) (by omega) (h.sh.slot_lt h1.le k m) (by rw [hv]; simp)
          have : b = j + 1 := by omega
          subst this
          exact up (by rw [hv]; simp) (by omega) ⟨q, hb⟩)
    up
    (by
      intro i q hi hq hv
      exact (hv ((h1.past i (by omega)).1 q (h.sh.lt hq).2)).elim)
  refine ⟨g, h.movePlain ht _ (by rw [hl]; rfl) hx rfl rfl rfl rfl rfl rfl (fun _ _ => Iff.rfl) (fun _ _ h => h) ext (fun _ _ _ _ _ => ⟨rfl, rfl⟩) sh ?_⟩
  refine ⟨?_, rfl, ?_, e.see h2⟩
  · refine ⟨h1.op, h1.le, fun i hi => ext.done i (by have := h1.le; omega) (h1.past i hi), ?_, fun hw i h5 h6 => ext.has (h1.chain hw i h5 h6)⟩
    rcases h1.trail with h1 | ⟨b, p, e1, e2, e3, e4⟩
    · exact Or.inl h1
    · exact Or.inr ⟨b, p, e1, e.mono e2, e3, fun i a b => ext.has (e4 i a b)⟩
  · show upd2 s.key j (slot r s.toMem j k m) (some k) j (slot r s.toMem j k m) = some k
    exact upd2_same _ _ _ _

theorem good_key (h : Inv r n s a g) (ht : t < n) {o : Op} {j m : Nat} (hl : s.th t = .key o j m) (ch : Choice) :
    Good r n a (keyStep r s t o j m ch) := by
  have hi := h.th t
  rw [hl] at hi
  obtain ⟨h1, h2⟩ := hi
  have hp : plain (s.th t) = true := by rw [hl]; rfl
  have fin : LInv r (s.goto t (.fin j)) a g t (.fin j) := ⟨h1.le, fun i hi => (same_plain rfl).done i (h1.past i hi)⟩
  unfold keyStep
  generalize hk : s.key j (slot r s.toMem j o.key m) = y
  cases y with
  | none =>
    have hgone := h1.trail.gone (h.sh.not_has h2 hk)
    cases o with
    | get k => exact ⟨a, g, .absentGet a t k h1.op hgone, h.hop ht hp rfl trivial⟩
    | del k => exact ⟨a, g, .absentDel a t k h1.op hgone, h.hop ht hp rfl fin⟩
    | set k v =>
      show Good r n a (if ch = .fail then _ else _)
      split
      · exact ⟨g, h.hop ht hp rfl ⟨(same_plain rfl).at h1, h2⟩⟩
      · exact good_claim h ht hl hk
  | some y =>
    have wr : o.writes = true → Good r n a (if y = o.key then .ok (s.goto t (.val o j m y)) none
        else if 8 < m then .ok (s.goto t (.rz (.again o) j)) none
        else .ok (s.goto t (.key o j (m + 1))) none) := by
      intro hw
      split
      · next he => exact ⟨g, h.hop ht hp rfl ⟨(same_plain rfl).at h1, h2, hk, fun _ => he⟩⟩
      · next he =>
        split
        · exact ⟨g, h.hop ht hp rfl ⟨h1.le, fun i hi => (same_plain rfl).done i (h1.past i hi), h1.op⟩⟩
        · exact ⟨g, h.hop ht hp rfl ⟨(same_plain rfl).at h1, seen_succ h2 hk he⟩⟩
    cases o with
    | get k => exact ⟨g, h.hop ht hp rfl ⟨(same_plain rfl).at h1, h2, hk, fun hw => by cases hw⟩⟩
    | set k v => exact wr rfl
    | del k => exact wr rfl

/-- The value of a slot changes. -/
structure Sets (s s1 : Mem) (j p : Nat) (v : Val) : Prop where
  last : s1.last = s.last
  data : s1.data = s.data
  cap : s1.cap = s.cap
  key : s1.key = s.key
  val : s1.val = upd2 s.val j p v

theorem Sets.other {m m1 : Mem} {j p : Nat} {v : Val} (e : Sets m m1 j p v) {i q : Nat} (h : ¬ (i = j ∧ q = p)) : m1.val i q = m.val i q := by
  rw [e.val, upd2_ne _ _ h]

theorem Sets.this {m m1 : Mem} {j p : Nat} {v : Val} (e : Sets m m1 j p v) : m1.val j p = v := by
  rw [e.val, upd2_same]

theorem Sets.slot {m m1 : Mem} {j p : Nat} {v : Val} (e : Sets m m1 j p v) (i x b : Nat) : slot r m1 i x b = slot r m i x b := by
  simp only [PropTab.slot]; rw [e.cap]

theorem Sets.has {m m1 : Mem} {j p : Nat} {v : Val} (e : Sets m m1 j p v) (i x : Nat) : has m1 i x = has m i x := by
  simp only [PropTab.has]; rw [e.key]

theorem Sets.seen {m m1 : Mem} {j p : Nat} {v : Val} (e : Sets m m1 j p v) (i x b : Nat) : seen r m1 i x b = seen r m i x b := by
  simp only [PropTab.seen, e.key, e.slot]

/-- The part of the invariant which does not depend on values. -/
theorem Sets.sh {m m1 : Mem} (h : Sh r m a g) {j p : Nat} {v : Val} (e : Sets m m1 j p v) {k : Nat} (hp : m.key j p = some k ∨ live v = false)
    (hlt : j ≤ m.last ∧ p < m.cap j)
    (hf : v = .closed → j ≠ m.last)
    (r1 : ∀ j p k x, m1.key j p = some k → m1.val j p = .val x → a'.map k = some x)
    (r2 : ∀ j p k, m1.key j p = some k → m1.val j p = .tomb → (j = m1.last → moved m1 k) → a'.map k = none)
    (r3 : ∀ p k, m1.key m1.last p = some k → m1.val m1.last p = .reserved → moved m1 k → a'.map k = g' p)
    (r4 : ∀ k x, a'.map k = some x → ∃ j p, m1.key j p = some k ∧ live (m1.val j p) = true)
    (one : ∀ j p q k, j < m1.last → m1.key j p = some k → m1.val j p ≠ .closed → m1.key (j + 1) q = some k →
      m1.val (j + 1) q = .tomb ∨ m1.val (j + 1) q = .reserved)
    (gone : ∀ t, a'.map (a'.op t).key = none → a'.gone t = true) : Sh r m1 a' g' := by
  refine ⟨by rw [e.last, e.data]; exact h.dl, by rw [e.last, e.cap]; exact h.pos, ?_, ?_, ?_, ?_, ?_, r1, r2, r3, r4, one, gone⟩
  · intro i q hi
    rw [e.last, e.cap] at hi
    rw [e.key, e.other]
    · exact h.free i q hi
    · rintro ⟨rfl, rfl⟩; omega
  · intro i q y hy
    rw [e.key] at hy
    obtain ⟨b, h1, h2⟩ := h.path i q y hy
    exact ⟨b, by rw [e.slot]; exact h1, by rw [e.seen]; exact h2⟩
  · intro i q hl
    rw [e.key]
    by_cases hh : i = j ∧ q = p
    · obtain ⟨rfl, rfl⟩ := hh
      rw [e.this] at hl
      rcases hp with hp | hp
      · exact ⟨k, hp⟩
      · rw [hp] at hl; cases hl
    · rw [e.other hh] at hl
      exact h.used i q hl
  · intro q
    rw [e.last]
    by_cases hh : m.last = j ∧ q = p
    · obtain ⟨h1, rfl⟩ := hh
      rw [h1, e.this]
      exact fun hv => hf hv h1.symm
    · rw [e.other hh]; exact h.front q
  · intro i y h1 h2 h3
    rw [e.has] at h3 ⊢
    rw [e.data] at h1
    rw [e.last] at h2
    exact h.sub i y h1 h2 h3

theorem good_cas_ok (h : Inv r n s a g) (ht : t < n) {o : Op} {j m : Nat} {x : Val} (hl : s.th t = .cas o j m x)
    (hv : s.val j (slot r s.toMem j o.key m) = x) :
    Good r n a (.ok ({ s with val := upd2 s.val j (slot r s.toMem j o.key m) o.value }.goto t (.fin j)) (some (.wrote t))) := by
  have hi := h.th t
  rw [hl] at hi
  obtain ⟨h1, h2, h3, h4, _⟩ := hi
  have hp : plain (s.th t) = true := by rw [hl]; rfl
  have hx : plain (.fin j) = true := rfl
  have hnc : s.val j (slot r s.toMem j o.key m) ≠ .closed := by rw [hv]; exact h4
  have hnr := h.not_reserved (p := slot r s.toMem j o.key m) h1.past
  have hvr : o.value ≠ .reserved ∧ o.value ≠ .closed := by cases o <;> simp [Op.value]
  have atomic : Atomic a (.wrote t) (a.write o.key o.value.toOpt) := by
    cases o with
    | get k => cases h2
    | set k v => exact .set a t k v h1.op
    | del k => exact .del a t k h1.op
  have hlt := h.sh.slot_lt h1.le o.key m
  have hpast : ∀ i q, i < j → i ≤ s.last → q < s.cap i → s.val i q = .closed := fun i q hi _ hq => (h1.past i hi).1 q hq
  generalize hw : slot r s.toMem j o.key m = p at *
  generalize hs1 : ({ s with val := upd2 s.val j p o.value } : St) = s1
  have e : Sets s.toMem s1.toMem j p o.value := by rw [← hs1]; exact ⟨rfl, rfl, rfl, rfl, rfl⟩
  have hth : s1.th = s.th := by rw [← hs1]
  have hop : s1.open = s.open := by rw [← hs1]
  have hac : s1.active = s.active := by rw [← hs1]
  have hmap : ∀ y, y ≠ o.key → (a.write o.key o.value.toOpt).map y = a.map y := fun y hy => by simp [Abs.write, hy]
  have hmapk : (a.write o.key o.value.toOpt).map o.key = o.value.toOpt := by simp [Abs.write]
  have hcl : ∀ i q, s1.val i q = .closed ↔ s.val i q = .closed := by
    intro i q
    by_cases hh : i = j ∧ q = p
    · obtain ⟨rfl, rfl⟩ := hh
      rw [e.this]
      exact ⟨fun hc => (hvr.2 hc).elim, fun hc => (hnc hc).elim⟩
    · rw [e.other hh]
  have hmv : ∀ y, moved s1.toMem y → moved s.toMem y :=
    fun y => moved_mono e.last (fun i q hk => by rw [e.key]; exact hk) (fun i q _ hc => (hcl i q).mp hc)
  have ext : Ext s (s1.goto t (.fin j)) a (a.write o.key o.value.toOpt) t :=
    { last := Nat.le_of_eq e.last.symm
      data := Nat.le_of_eq e.data.symm
      cap := fun i _ => by show s1.cap i = _; rw [e.cap]
      key := fun i q y hy => by show s1.key i q = _; rw [e.key]; exact hy
      closed := fun i q hc => (hcl i q).mpr hc
      done := fun i _ hi => hi.keep hth (by rw [e.cap]) (fun q hq => (hcl i q).mpr hq) (plain_hd hx i)
      op := fun _ _ => rfl
      gone := fun u _ hg => by simp [Abs.write, hg]
      over := fun u _ hg => by simp [Abs.write, hg]
      live := by
        intro b q y hy hlv
        by_cases hh : b = j ∧ q = p
        · obtain ⟨rfl, rfl⟩ := hh
          rw [h3] at hy
          have hy := Option.some.inj hy
          subst hy
          cases ho : o.value with
          | val v =>
            refine Or.inr ⟨b, q, Nat.le_refl _, by show s1.key b q = _; rw [e.key]; exact h3, ?_, fun i h3 h4 => by omega⟩
            show live (s1.val b q) = true
            rw [e.this, ho]; rfl
          | tomb => exact Or.inl (fun u _ hu => by simp [Abs.write, Val.toOpt, hu])
          | closed => exact (hvr.2 ho).elim
          | reserved => exact (hvr.1 ho).elim
        · refine Or.inr ⟨b, q, Nat.le_refl _, by show s1.key b q = _; rw [e.key]; exact hy, ?_, fun i h3 h4 => by omega⟩
          show live (s1.val b q) = true
          rw [e.other hh]; exact hlv
      stay := by
        intro i q y _ hy _
        by_cases hh : i = j ∧ q = p
        · obtain ⟨rfl, rfl⟩ := hh
          rw [h3] at hy
          have hy := Option.some.inj hy
          subst hy
          exact Or.inr (Or.inr (fun u _ hu => by simp [Abs.write, hu]))
        · exact Or.inl (e.other hh) }
  have keeps : Keeps s (s1.goto t (.fin j)) g g t := by
    intro u k q _ ho
    refine ⟨?_, rfl⟩
    by_cases hh : k + 1 = j ∧ q = p
    · have := (h1.past k (by omega)).2 u
      rw [owns_dang ho] at this; cases this
    · exact e.other hh
  have sh : Sh r s1.toMem (a.write o.key o.value.toOpt) g := by
    refine Sets.sh (a' := a.write o.key o.value.toOpt) h.sh e (Or.inl h3) ⟨h1.le, hlt⟩ (fun hc => (hvr.2 hc).elim) ?_ ?_ ?_ ?_ ?_ ?_
    · intro i q y v hk hval
      rw [e.key] at hk
      by_cases hh : i = j ∧ q = p
      · obtain ⟨rfl, rfl⟩ := hh
        rw [h3] at hk
        have hk := Option.some.inj hk
        subst hk
        rw [e.this] at hval
        rw [hmapk, hval]; rfl
      · rw [e.other hh] at hval
        by_cases hy : y = o.key
        · subst hy
          exfalso
          have hle := h.sh.lt hk
          rcases Nat.lt_trichotomy i j with hij | hij | hij
          · rw [hpast i q hij hle.1 hle.2] at hval; cases hval
          · subst hij
            exact hh ⟨rfl, h.sh.uniq hk h3⟩
          · have := h.level_open (k := j) (by omega) hlt hnc
            have : i = j + 1 := by omega
            subst this
            rcases h.sh.one j p q _ (by omega) h3 hnc hk with h5 | h5 <;> (rw [h5] at hval; cases hval)
        · rw [hmap y hy]
          exact h.sh.r1 i q y v hk hval
    · intro i q y hk hval hm
      rw [e.key] at hk
      rw [e.last] at hm
      by_cases hh : i = j ∧ q = p
      · obtain ⟨rfl, rfl⟩ := hh
        rw [h3] at hk
        have hk := Option.some.inj hk
        subst hk
        rw [e.this] at hval
        rw [hmapk, hval]; rfl
      · rw [e.other hh] at hval
        by_cases hy : y = o.key
        · subst hy
          exfalso
          have hle := h.sh.lt hk
          rcases Nat.lt_trichotomy i j with hij | hij | hij
          · rw [hpast i q hij hle.1 hle.2] at hval; cases hval
          · subst hij
            exact hh ⟨rfl, h.sh.uniq hk h3⟩
          · have hlev := h.level_open (k := j) (by omega) hlt hnc
            exact hnc (hmv _ (hm (by omega)) j p hlev h3)
        · rw [hmap y hy]
          exact h.sh.r2 i q y hk hval (fun hi => hmv y (hm hi))
    · intro q y hk hval hm
      rw [e.key, e.last] at hk
      rw [e.last] at hval
      have hh : ¬ (s.last = j ∧ q = p) := by
        rintro ⟨h5, rfl⟩
        rw [h5, e.this] at hval
        exact hvr.1 hval
      rw [e.other hh] at hval
      by_cases hy : y = o.key
      · subst hy
        exfalso
        obtain ⟨k, u, e1, e2, e3⟩ := h.res _ _ hval
        by_cases hj : j = s.last
        · have := (h1.past k (by omega)).2 u
          rw [owns_dang e3] at this; cases this
        · have := h1.le
          have hlev := h.level_open (k := j) (by omega) hlt hnc
          exact hnc (hmv _ hm j p hlev h3)
      · rw [hmap y hy]
        exact h.sh.r3 q y hk hval (hmv y hm)
    · intro y v hy
      by_cases he : y = o.key
      · subst he
        rw [hmapk] at hy
        refine ⟨j, p, by rw [e.key]; exact h3, ?_⟩
        rw [e.this]
        cases ho : o.value with
        | val v => rfl
        | _ => rw [ho] at hy; cases hy
      · rw [hmap y he] at hy
        obtain ⟨i, q, h5, h6⟩ := h.sh.r4 y v hy
        refine ⟨i, q, by rw [e.key]; exact h5, ?_⟩
        have hh : ¬ (i = j ∧ q = p) := by
          rintro ⟨rfl, rfl⟩
          rw [h3] at h5
          exact he (Option.some.inj h5).symm
        rw [e.other hh]; exact h6
    · intro i q q' y h5 h6 h7 h8
      rw [e.last] at h5
      rw [e.key] at h6 h8
      have h7' : s.val i q ≠ .closed := fun hc => h7 ((hcl i q).mpr hc)
      by_cases hh : i + 1 = j ∧ q' = p
      · exact (h7' ((h1.past i (by omega)).1 q (h.sh.lt h6).2)).elim
      · rw [e.other hh]
        exact h.sh.one i q q' y h5 h6 h7' h8
    · intro u hu
      have hg : (a.write o.key o.value.toOpt).gone u = (a.gone u || ((a.op u).key == o.key && o.value.toOpt.isNone)) := rfl
      have hm : (a.write o.key o.value.toOpt).map (a.op u).key = none := hu
      rw [hg]
      by_cases he : (a.op u).key = o.key
      · rw [he, hmapk] at hm
        simp [he, hm]
      · rw [hmap _ he] at hm
        simp [h.sh.gone u hm]
  refine ⟨_, g, atomic, h.movePlain ht s1 hp hx hth e.last e.data e.cap hop hac hcl ?_ ext keeps sh ?_⟩
  · intro i q hr
    by_cases hh : i = j ∧ q = p
    · obtain ⟨rfl, rfl⟩ := hh
      rw [e.this] at hr
      exact (hvr.1 hr).elim
    · rw [e.other hh] at hr; exact hr
  · exact ⟨by show j ≤ s1.last; rw [e.last]; exact h1.le, fun i hi => ext.done i (by have := h1.le; omega) (h1.past i hi)⟩

theorem good_cas (h : Inv r n s a g) (ht : t < n) {o : Op} {j m : Nat} {x : Val} (hl : s.th t = .cas o j m x) :
    Good r n a (if s.val j (slot r s.toMem j o.key m) = x then
        .ok ({ s with val := upd2 s.val j (slot r s.toMem j o.key m) o.value }.goto t (.fin j)) (some (.wrote t))
      else .ok (s.goto t (.re o j m)) none) := by
  split
  · next hv => exact good_cas_ok h ht hl hv
  · next hv =>
    have hi := h.th t
    rw [hl] at hi
    obtain ⟨h1, h2, h3, h4, h5⟩ := hi
    exact ⟨g, h.hop ht (by rw [hl]; rfl) rfl ⟨(same_plain rfl).at h1, h2, h3, h5.resolve_left hv⟩⟩

end

end Verif.PropTab
