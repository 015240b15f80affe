import Verif.Conc.ObjectInv

/-!
Consequences of the invariant of the property tables.
-/
namespace Verif.PropTab
open Verif.Conc (upd sumTo sumTo_congr sumTo_upd sumTo_zero pend_le)

theorem upd2_eq {α : Type} (f : Nat → Nat → α) (j p : Nat) (x : α) (j' p' : Nat) :
    upd2 f j p x j' p' = if j' = j ∧ p' = p then x else f j' p' := by
  unfold upd2 upd
  by_cases h1 : j' = j
  · subst h1
    by_cases h2 : p' = p <;> simp [h2]
  · simp [h1]

theorem upd2_same {α : Type} (f : Nat → Nat → α) (j p : Nat) (x : α) : upd2 f j p x j p = x := by
  simp [upd2_eq]

theorem upd2_ne {α : Type} (f : Nat → Nat → α) {j p j' p' : Nat} (x : α) (h : ¬ (j' = j ∧ p' = p)) : upd2 f j p x j' p' = f j' p' := by
  rw [upd2_eq, if_neg h]

section
variable {r : Rules} {s : Mem} {a : Abs} {g : Nat → Option Nat}

theorem Sh.uniq (h : Sh r s a g) {j p q k : Nat} (h1 : s.key j p = some k) (h2 : s.key j q = some k) : p = q := by
  obtain ⟨n1, e1, s1⟩ := h.path j p k h1
  obtain ⟨n2, e2, s2⟩ := h.path j q k h2
  rcases Nat.lt_trichotomy n1 n2 with hn | hn | hn
  · obtain ⟨x, hx, hne⟩ := s2 n1 hn
    rw [← e1, h1] at hx
    exact (hne (Option.some.inj hx).symm).elim
  · rw [e1, e2, hn]
  · obtain ⟨x, hx, hne⟩ := s1 n2 hn
    rw [← e2, h2] at hx
    exact (hne (Option.some.inj hx).symm).elim

theorem Sh.not_has (h : Sh r s a g) {j k n : Nat} (h1 : seen r s j k n) (h2 : s.key j (slot r s j k n) = none) : ¬ has s j k := by
  rintro ⟨p, hp⟩
  obtain ⟨m, e, hm⟩ := h.path j p k hp
  rcases Nat.lt_trichotomy m n with hn | hn | hn
  · obtain ⟨x, hx, hne⟩ := h1 m hn
    rw [← e, hp] at hx
    exact hne (Option.some.inj hx).symm
  · rw [← hn, ← e, hp] at h2
    exact Option.some_ne_none _ h2
  · obtain ⟨x, hx, _⟩ := hm n hn
    rw [h2] at hx
    exact Option.some_ne_none _ hx.symm

theorem Sh.not_has_all (h : Sh r s a g) {j k : Nat} (hj : j ≤ s.last) (h1 : seen r s j k (s.cap j)) : ¬ has s j k := by
  rintro ⟨p, hp⟩
  obtain ⟨m, e, _⟩ := h.path j p k hp
  have hc := h.pos j hj
  obtain ⟨x, hx, hne⟩ := h1 (m % s.cap j) (Nat.mod_lt _ hc)
  have he : slot r s j k (m % s.cap j) = p := by
    rw [e]; simp [slot, Nat.add_mod]
  rw [he, hp] at hx
  exact hne (Option.some.inj hx).symm

theorem Sh.lt (h : Sh r s a g) {j p k : Nat} (h1 : s.key j p = some k) : j ≤ s.last ∧ p < s.cap j := by
  by_cases hh : s.last < j ∨ s.cap j ≤ p
  · rw [(h.free j p hh).1] at h1
    exact (Option.some_ne_none _ h1.symm).elim
  · omega

theorem Sh.val_lt (h : Sh r s a g) {j p : Nat} (h1 : s.val j p ≠ .tomb) : j ≤ s.last ∧ p < s.cap j := by
  by_cases hh : s.last < j ∨ s.cap j ≤ p
  · exact (h1 (h.free j p hh).2).elim
  · omega

theorem Sh.slot_lt (h : Sh r s a g) {j : Nat} (hj : j ≤ s.last) (k n : Nat) : slot r s j k n < s.cap j := Nat.mod_lt _ (h.pos j hj)

theorem seen_succ {j k n x : Nat} (h : seen r s j k n) (hx : s.key j (slot r s j k n) = some x) (hne : x ≠ k) : seen r s j k (n + 1) := by
  intro m hm
  by_cases he : m = n
  · subst he; exact ⟨x, hx, hne⟩
  · exact h m (by omega)

theorem seen_zero (j k : Nat) : seen r s j k 0 := fun _ h => by omega

theorem Trail.gone {t j k : Nat} (h : Trail s a t j k) (hn : ¬ has s j k) : a.gone t = true := by
  rcases h with h | ⟨m, p, hjm, _, _, hi⟩
  · exact h
  · exact (hn (hi j (Nat.le_refl _) hjm)).elim

theorem live_ne_closed {v : Val} (h : live v = true) : v ≠ .closed := by
  intro he; subst he; cases h

theorem live_ne_tomb {v : Val} (h : live v = true) : v ≠ .tomb := by
  intro he; subst he; cases h

theorem live_of {v : Val} (h1 : v ≠ .closed) (h2 : v ≠ .tomb) : live v = true := by
  cases v <;> simp_all [live]

end

section
variable {r : Rules} {n : Nat} {s : St} {a : Abs} {g : Nat → Option Nat}

theorem Inv.not_live (h : Inv r n s a g) {j p : Nat} (hd : Done s j) (hl : live (s.val j p) = true) : False := by
  have := (h.sh.val_lt (live_ne_tomb hl)).2
  exact live_ne_closed hl (hd.1 p this)

theorem Inv.level (h : Inv r n s a g) {t k : Nat} (hk : k < s.last) (hd : dang k (s.th t) = true) : k + 1 = s.last := by
  by_cases hh : k + 1 < s.last
  · have := (h.done k (Or.inl hh)).2 t
    rw [this] at hd; cases hd
  · omega

theorem Inv.level_open (h : Inv r n s a g) {k i : Nat} (hk : k < s.last) (hi : i < s.cap k) (hv : s.val k i ≠ .closed) : k + 1 = s.last := by
  by_cases hh : k + 1 < s.last
  · exact (hv ((h.done k (Or.inl hh)).1 i hi)).elim
  · omega

theorem owns_dang {l : Local} {k p : Nat} (h : Owns l k p) : dang k l = true := by
  cases h <;> simp [dang, dangPc]

theorem Inv.not_reserved (h : Inv r n s a g) {j p : Nat} (hd : ∀ i, i < j → Done s i) : s.val j p ≠ .reserved := by
  intro hv
  obtain ⟨k, t, h1, _, h3⟩ := h.res j p hv
  have := (hd k (by omega)).2 t
  rw [owns_dang h3] at this
  cases this

theorem Inv.not_reserved_lt (h : Inv r n s a g) {j p : Nat} (hj : j < s.last) : s.val j p ≠ .reserved := by
  intro hv
  obtain ⟨k, t, h1, h2, h3⟩ := h.res j p hv
  omega

/-- A value is never in a table which comes before one where a thread works. -/
theorem Inv.live_ge (h : Inv r n s a g) {j m p k : Nat} (hd : ∀ i, i < j → Done s i) (_ : s.key m p = some k) (hl : live (s.val m p) = true) :
    j ≤ m := by
  by_cases hm : m < j
  · exact (h.not_live (hd m hm) hl).elim
  · omega

theorem Sh.chain {m : Mem} (h : Sh r m a g) {k : Nat} (d : Nat) : ∀ j, j + d ≤ m.last → m.data ≤ j → has m (j + d) k → has m j k := by
  induction d with
  | zero => intro j _ _ hh; exact hh
  | succ d ih =>
    intro j h1 h2 hh
    refine ih j (by omega) h2 (h.sub (j + d) k (by omega) (by omega) ?_)
    exact hh

/-- A thread which begins with the table of the object. -/
theorem Inv.enter (h : Inv r n s a g) {t : Nat} {o : Op} (ho : a.op t = o) : At s a t o s.data where
  op := ho
  le := h.sh.dl
  past := fun i hi => h.done i (Or.inr hi)
  trail := by
    cases hm : a.map o.key with
    | none => exact Or.inl (h.sh.gone t (by rw [ho]; exact hm))
    | some x =>
      obtain ⟨m, p, hp, hl⟩ := h.sh.r4 _ _ hm
      have hge := h.live_ge (j := s.data) (fun i hi => h.done i (Or.inr hi)) hp hl
      have hle := (h.sh.lt hp).1
      refine Or.inr ⟨m, p, hge, hp, hl, fun i h1 h2 => ?_⟩
      have := h.sh.chain (k := o.key) (m - i) i (by omega) h1
      rw [show i + (m - i) = m by omega] at this
      exact this ⟨p, hp⟩
  chain := fun _ i h1 h2 => by omega

/-- No value is left in a table which has been copied. -/
theorem Inv.follow (h : Inv r n s a g) {t k : Nat} {o : Op} (ha : At s a t o k) (hk : k < s.last) (hd : Done s k)
    (hw : o.writes = true → has s.toMem k o.key) : At s a t o (k + 1) where
  op := ha.op
  le := hk
  past := fun i hi => by
    by_cases he : i = k
    · subst he; exact hd
    · exact ha.past i (by omega)
  trail := by
    rcases ha.trail with h1 | ⟨m, p, h1, h2, h3, h4⟩
    · exact Or.inl h1
    · have hge := h.live_ge (j := k + 1) (fun i hi => by
        by_cases he : i = k
        · subst he; exact hd
        · exact ha.past i (by omega)) h2 h3
      exact Or.inr ⟨m, p, hge, h2, h3, fun i h5 h6 => h4 i (by omega) h6⟩
  chain := fun hh i h1 h2 => by
    by_cases he : i = k
    · subst he; exact hw hh
    · exact ha.chain hh i h1 (by omega)

theorem unclosed_zero {s : Mem} {k : Nat} (h : unclosed s k = 0) : allClosed s k := by
  intro i hi
  have := sumTo_zero h i hi
  split at this
  · assumption
  · omega

theorem sum_one {f : Nat → Nat} {n t : Nat} (ht : t < n) (h : sumTo f n = f t) : ∀ u, u < n → u ≠ t → f u = 0 := by
  intro u hu hne
  have h1 := sumTo_upd f n t 0 ht
  have h2 : sumTo (upd f t 0) n = 0 := by omega
  have := sumTo_zero h2 u hu
  simpa [upd, hne] using this

/-- If nobody is copying and some slot is closed, the table has been copied. -/
theorem Inv.quiet (h : Inv r n s a g) {k i : Nat} (hk : k < s.last) (h0 : s.active k = 0) (hi : i < s.cap k) (hc : s.val k i = .closed) : Done s k := by
  have hz := h.actives k (by omega)
  rw [h0] at hz
  have hu : ∀ u, counted k (s.th u) = 0 := by
    intro u
    by_cases hu : u < n
    · exact sumTo_zero hz.symm u hu
    · rw [h.idle u (by omega)]; rfl
  refine ⟨?_, fun u => ?_⟩
  · rcases h.started k i hi hc with h1 | ⟨u, h1⟩
    · exact h1
    · rw [hu u] at h1; cases h1
  · have := hu u
    generalize s.th u = l at this
    cases l with
    | copy c k' pc =>
      simp only [dang, counted] at this ⊢
      split
      · next he =>
        rw [if_pos he] at this
        revert this
        cases pc <;> simp [countPc, dangPc]
      · rfl
    | _ => rfl

end

/-- Same shared memory. -/
structure Same (s s' : St) : Prop where
  mem : s'.toMem = s.toMem
  done : ∀ k, Done s k → Done s' k

theorem Same.goto {s : St} {t : Nat} {x : Local} (hd : ∀ k, dang k x = true → ¬ Done s k) : Same s (s.goto t x) :=
  ⟨rfl, fun k h => h.keep rfl rfl (fun _ h => h) (hd k)⟩

theorem Same.at {s s' : St} (e : Same s s') {a : Abs} {t j : Nat} {o : Op} (h : At s a t o j) : At s' a t o j where
  op := h.op
  le := by rw [e.mem]; exact h.le
  past := fun i hi => e.done i (h.past i hi)
  trail := by rw [e.mem]; exact h.trail
  chain := by rw [e.mem]; exact h.chain

theorem Same.cont {s s' : St} (e : Same s s') {a : Abs} {t k : Nat} {c : Cont} (h : ContInv s a t k c) : ContInv s' a t k c := by
  cases c with
  | next o =>
    obtain ⟨h1, h2, h3⟩ := h
    exact ⟨e.at h1, by rw [e.mem]; exact h2, by rw [e.mem]; exact h3⟩
  | again o => exact h
  | stop => trivial

theorem Same.rz {s s' : St} (e : Same s s') {a : Abs} {t j : Nat} {c : Cont} (h : RzInv s a t j c) : RzInv s' a t j c :=
  ⟨by rw [e.mem]; exact h.1, fun i hi => e.done i (h.2.1 i hi), h.2.2⟩

end Verif.PropTab
