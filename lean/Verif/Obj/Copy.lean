import Verif.Obj.Lemmas

/-! Moving the properties to a larger table. -/
namespace Verif.Obj

variable {K V : Type} [DecidableEq K]

/-- The first `i` slots of `base` have been moved from `old`, which was equal to `base`, to `new`. -/
structure Copied (H : K → Nat) (base old new : Table K V) (m : K → Option V) (i : Nat) : Prop where
  cap : old.cap = base.cap
  opn : old.opn = base.cap - i
  next : old.next = base.next
  keep : ∀ j, i ≤ j → old.items j = base.items j
  shut : ∀ j < i, old.items j = { base.items j with val := .closed }
  good : Good H new
  fits : base.cap ≤ new.cap
  used : new.used ≤ i
  rep : Rep new m
  map : ∀ k v, m k = some v ↔ ∃ q < i, (base.items q).key = some k ∧ (base.items q).val = .val v
  from_ : ∀ p < new.cap, ∀ k, (new.items p).key = some k → ∃ q < i, (base.items q).key = some k

/-- What is needed of the table which is copied. -/
structure Source (H : K → Nat) (base : Table K V) : Prop where
  pow : ∃ j, 2 ≤ j ∧ j ≤ 27 ∧ base.cap = 2 ^ j
  empty : ∀ i < base.cap, (base.items i).key = none → (base.items i).val = .tomb
  hash : ∀ i < base.cap, ∀ k, (base.items i).key = some k → (base.items i).hash = H k
  uniq : ∀ i < base.cap, ∀ j < base.cap, ∀ k, (base.items i).key = some k → (base.items j).key = some k → i = j
  live : ∀ i < base.cap, (base.items i).val ≠ .closed ∧ (base.items i).val ≠ .reserved

theorem setItem_setItem (t : Table K V) (i : Nat) (x y : Item K V) (u : Nat) :
    ({ t.setItem i x with used := u } : Table K V).setItem i y = { t.setItem i y with used := u } := by
  simp only [Table.setItem, Table.mk.injEq, true_and]
  funext j; split <;> rfl

theorem salvage_spec {H : K → Nat} {base old new : Table K V} {m : K → Option V} {i : Nat} (sb : Source H base)
    (c : Copied H base old new m i) (hi : i < base.cap) :
    ∃ old' new' m', salvage old new i = .ok (old', new', true) ∧ old'.opn = old.opn ∧ new'.cap = new.cap ∧
      Copied H base { old' with opn := old'.opn - 1 } new' m' (i + 1) := by
  have hx := c.keep i (Nat.le_refl _)
  have hio : i < old.cap := by rw [c.cap]; exact hi
  have hshut : ∀ j < i + 1, (old.setItem i { base.items i with val := .closed }).items j = { base.items j with val := .closed } := by
    intro j hj
    simp only [Table.setItem]
    by_cases e : j = i
    · subst e; simp
    · rw [if_neg e]; exact c.shut j (by omega)
  have hkeep : ∀ j, i + 1 ≤ j → (old.setItem i { base.items i with val := .closed }).items j = base.items j := by
    intro j hj
    simp only [Table.setItem]
    rw [if_neg (by omega)]; exact c.keep j (by omega)
  rw [salvage, Table.item_ok hio, hx]
  simp only [bind, Except.bind]
  cases hv : (base.items i).val with
  | closed => exact absurd hv (sb.live i hi).1
  | reserved => exact absurd hv (sb.live i hi).2
  | tomb =>
    refine ⟨_, _, m, rfl, rfl, rfl, ⟨c.cap, ?_, c.next, hkeep, hshut, c.good, c.fits, Nat.le_succ_of_le c.used, c.rep, ?_, ?_⟩⟩
    · show old.opn - 1 = _; rw [c.opn]; omega
    · intro k v
      rw [c.map]
      constructor
      · rintro ⟨q, hq, h⟩; exact ⟨q, by omega, h⟩
      · rintro ⟨q, hq, h⟩
        have : q ≠ i := by intro e; subst e; rw [hv] at h; cases h.2
        exact ⟨q, by omega, h⟩
    · intro p hp k hk
      obtain ⟨q, hq, h⟩ := c.from_ p hp k hk
      exact ⟨q, by omega, h⟩
  | val v =>
    simp only
    cases hk : (base.items i).key with
    | none => have := sb.empty i hi hk; rw [hv] at this; cases this
    | some k =>
      simp only
      rw [sb.hash i hi k hk, c.good.mask]
      have hab : ∀ p < new.cap, (new.items p).key ≠ some k := by
        intro p hp e
        obtain ⟨q, hq, h⟩ := c.from_ p hp k e
        have := sb.uniq q (by omega) i hi k h hk
        omega
      have hu : new.used < new.cap := by have := c.used; have := c.fits; omega
      obtain ⟨d, hd, sk, hn, hcl⟩ := claim_spec c.good k hu hab new.cap 0 (by omega) (Skip.zero _ _ _)
      rw [Nat.add_zero] at hcl
      rw [hcl]
      have hlt := c.good.lt (H k + d)
      simp only
      rw [Table.item_ok (by exact hlt)]
      simp only [Table.setItem, if_true]
      obtain ⟨g', r'⟩ := good_insert c.good c.rep k (some v) sk hd hn
      have heq := setItem_setItem new ((H k + d) % new.cap) ⟨some k, H k, .tomb⟩ ⟨some k, H k, .val v⟩ (new.used + 1)
      simp only [Table.setItem, Table.mk.injEq, true_and] at heq
      refine ⟨_, _, upd m k (some v), rfl, rfl, rfl, ⟨c.cap, ?_, c.next, ?_, ?_, ?_, c.fits, ?_, ?_, ?_, ?_⟩⟩
      · show old.opn - 1 = _; rw [c.opn]; omega
      · intro j hj
        have := hkeep j hj
        have e := sb.hash i hi k hk
        simpa [Table.setItem, hk, e] using this
      · intro j hj
        have := hshut j hj
        have e := sb.hash i hi k hk
        simpa [Table.setItem, hk, e] using this
      · rw [heq]; exact g'
      · have := c.used; show new.used + 1 ≤ _; omega
      · rw [heq]; exact r'
      · intro k' v'
        unfold upd
        constructor
        · split
          · rename_i e; subst e
            intro e; cases e
            exact ⟨i, by omega, hk, hv⟩
          · intro e
            obtain ⟨q, hq, h⟩ := (c.map k' v').mp e
            exact ⟨q, by omega, h⟩
        · rintro ⟨q, hq, h⟩
          by_cases e : q = i
          · subst e
            rw [hk, hv] at h
            cases h.1; cases h.2
            simp
          · have : k' ≠ k := by
              intro e2; subst e2
              exact e (sb.uniq q (by omega) i hi k' h.1 hk)
            rw [if_neg this]
            exact (c.map k' v').mpr ⟨q, by omega, h⟩
      · intro p hp k' hk'
        simp only at hk'
        split at hk'
        · cases hk'; exact ⟨i, by omega, hk⟩
        · obtain ⟨q, hq, h⟩ := c.from_ p hp k' hk'
          exact ⟨q, by omega, h⟩

theorem copyLoop_spec {H : K → Nat} {base : Table K V} (sb : Source H base) :
    ∀ n i old new m, Copied H base old new m i → i + n = base.cap → 0 < n →
      ∃ old' new' m', copyLoop n old new i = .ok (old', new') ∧ new'.cap = new.cap ∧ Copied H base old' new' m' base.cap := by
  intro n
  induction n with
  | zero => intro i old new m c h h0; omega
  | succ n ih =>
    intro i old new m c h h0
    obtain ⟨old', new', m', hs, ho, hc, c'⟩ := salvage_spec sb c (by omega)
    rw [copyLoop, hs]
    simp only [bind, Except.bind, if_true]
    have hop := c'.opn
    simp only at hop
    by_cases hn : n = 0
    · subst hn
      rw [if_pos (by omega)]
      exact ⟨_, _, m', rfl, hc, by have : i + 1 = base.cap := by omega
                                   rw [← this]; exact c'⟩
    · rw [if_neg (by omega)]
      obtain ⟨j, h2, h27, e⟩ := sb.pow
      have hcap : old'.cap = base.cap := c'.cap
      have : (i + 1) &&& (old'.cap - 1) = i + 1 := by
        rw [hcap, e, Nat.and_two_pow_sub_one_eq_mod, ← e, Nat.mod_eq_of_lt (by omega)]
      rw [this]
      obtain ⟨a, b, m2, h1, h3, h4⟩ := ih (i + 1) _ _ _ c' (by omega) (by omega)
      exact ⟨a, b, m2, h1, by rw [h3, hc], h4⟩

theorem Good.source {H : K → Nat} {t : Table K V} (g : Good H t) (n : Option Nat) : Source H { t with next := n } :=
  ⟨g.pow, g.empty, g.hash, g.uniq, g.live⟩

theorem newTable_ok {cap : Nat} (h : cap ≤ 134217728) (h0 : 0 < cap) :
    newTable cap = .ok (⟨cap, 0, cap, 0, none, fun _ => ⟨none, 0, .tomb⟩⟩ : Table K V) := by
  unfold newTable allocSize
  rw [if_pos (by omega)]

theorem good_new (H : K → Nat) {j : Nat} (h2 : 2 ≤ j) (h27 : j ≤ 27) :
    Good H (⟨2 ^ j, 0, 2 ^ j, 0, none, fun _ => ⟨none, 0, .tomb⟩⟩ : Table K V) := by
  refine ⟨⟨j, h2, h27, rfl⟩, by simp, by simp, by simp, by simp, ?_, by simp, rfl, rfl⟩
  symm
  rw [List.countP_eq_zero]
  intro a _
  simp [Table.taken]

theorem rep_new {j : Nat} : Rep (⟨2 ^ j, 0, 2 ^ j, 0, none, fun _ => ⟨none, 0, .tomb⟩⟩ : Table K V) (fun _ => none) := by
  intro k v; simp

/-- A copy has the same properties; the old table keeps its keys, its values are closed. -/
theorem copyTable_spec {H : K → Nat} {t : Table K V} (g : Good H t) {m : K → Option V} (r : Rep t m) (n : Option Nat) {j : Nat}
    (h2 : 2 ≤ j) (h27 : j ≤ 27) (hj : t.cap ≤ 2 ^ j) :
    ∃ old new, copyTable { t with next := n } ⟨2 ^ j, 0, 2 ^ j, 0, none, fun _ => ⟨none, 0, .tomb⟩⟩ = .ok (old, new) ∧
      Good H new ∧ Rep new m ∧ new.cap = 2 ^ j ∧ new.used ≤ t.cap ∧ old.cap = t.cap ∧ old.next = n ∧
      (∀ i < t.cap, old.items i = { t.items i with val := .closed }) ∧
      (∀ i < new.cap, ∀ k, (new.items i).key = some k → ∃ q < t.cap, (t.items q).key = some k) := by
  have c0 : Copied H { t with next := n } { t with next := n } ⟨2 ^ j, 0, 2 ^ j, 0, none, fun _ => ⟨none, 0, .tomb⟩⟩ (fun _ => none) 0 :=
    ⟨rfl, by show t.opn = _; rw [g.opn]; rfl, rfl, fun _ _ => rfl, fun _ h => by omega, good_new H h2 h27, hj, Nat.le_refl _, rep_new,
      by intro k v; simp, by simp⟩
  have hp := g.pos
  have hstart : (64 * (t.cap - t.opn)) % 4294967296 &&& (t.cap - 1) = 0 := by rw [g.opn]; simp
  unfold copyTable
  simp only
  rw [hstart]
  obtain ⟨old, new, m', h, hc, c⟩ := copyLoop_spec (g.source n) t.cap 0 _ _ _ c0 (by simp) (by omega)
  refine ⟨old, new, h, c.good, ?_, hc, c.used, c.cap, c.next, c.shut, c.from_⟩
  have : m' = m := by
    funext k
    have h1 : ∀ v, m' k = some v ↔ m k = some v := fun v => by
      rw [c.map k v]; exact (r k v).symm
    cases e : m' k with
    | some v => exact ((h1 v).mp e).symm
    | none =>
      cases e2 : m k with
      | none => rfl
      | some v => rw [(h1 v).mpr e2] at e; cases e
  rw [← this]; exact c.rep

end Verif.Obj
