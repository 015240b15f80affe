import Verif.Obj.Model

/-! Properties of a single table. -/
namespace Verif.Obj

variable {K V : Type} [DecidableEq K]

theorem countP_update (f : Nat → Bool) (i n : Nat) (hi : i < n) (hf : f i = false) :
    (List.range n).countP (fun j => if j = i then true else f j) = (List.range n).countP f + 1 := by
  induction n with
  | zero => omega
  | succ n ih =>
    rw [List.range_succ, List.countP_append, List.countP_append]
    by_cases h : i = n
    · subst h
      have : (List.range i).countP (fun j => if j = i then true else f j) = (List.range i).countP f := by
        apply List.countP_congr
        intro x hx
        have : x ≠ i := by have := List.mem_range.mp hx; omega
        simp [this]
      rw [this]
      simp [hf]
    · have := ih (by omega)
      rw [this]
      have hn : ¬ n = i := fun e => h e.symm
      simp only [List.countP_cons, List.countP_nil, hn, if_false]
      omega

def Table.taken (t : Table K V) (i : Nat) : Bool := (t.items i).key.isSome

/-- What holds of the table of an object between operations. -/
structure Good (H : K → Nat) (t : Table K V) : Prop where
  pow : ∃ j, 2 ≤ j ∧ j ≤ 27 ∧ t.cap = 2 ^ j
  empty : ∀ i < t.cap, (t.items i).key = none → (t.items i).val = .tomb
  hash : ∀ i < t.cap, ∀ k, (t.items i).key = some k → (t.items i).hash = H k
  uniq : ∀ i < t.cap, ∀ j < t.cap, ∀ k, (t.items i).key = some k → (t.items j).key = some k → i = j
  chain : ∀ i < t.cap, ∀ k, (t.items i).key = some k →
    ∃ d < t.cap, i = (H k + d) % t.cap ∧ ∀ e < d, (t.items ((H k + e) % t.cap)).key ≠ none
  used : t.used = (List.range t.cap).countP t.taken
  live : ∀ i < t.cap, (t.items i).val ≠ .closed ∧ (t.items i).val ≠ .reserved
  next : t.next = none
  opn : t.opn = t.cap

theorem Good.pos {H : K → Nat} {t : Table K V} (g : Good H t) : 4 ≤ t.cap ∧ t.cap ≤ 134217728 := by
  obtain ⟨j, h2, h27, e⟩ := g.pow
  rw [e]
  exact ⟨Nat.pow_le_pow_right (n := 2) (by omega) h2, Nat.pow_le_pow_right (n := 2) (by omega) h27⟩

theorem Good.mask {H : K → Nat} {t : Table K V} (g : Good H t) (n : Nat) : n &&& (t.cap - 1) = n % t.cap := by
  obtain ⟨j, h2, h27, e⟩ := g.pow
  rw [e, Nat.and_two_pow_sub_one_eq_mod]

theorem Good.lt {H : K → Nat} {t : Table K V} (g : Good H t) (n : Nat) : n % t.cap < t.cap :=
  Nat.mod_lt _ (by have := g.pos; omega)

theorem succ_mod (c h d i : Nat) (e : i % c = (h + d) % c) : (i % c + 1) % c = (h + (d + 1)) % c := by
  rw [e, Nat.mod_add_mod, Nat.add_assoc]

theorem Table.item_ok {t : Table K V} {i : Nat} (h : i < t.cap) : t.item i = .ok (t.items i) := by simp [Table.item, h]

theorem isKeyEqual_eq {H : K → Nat} (k k' : K) (x : Item K V) (h : x.hash = H k') : isKeyEqual k (H k) k' x = decide (k = k') := by
  unfold isKeyEqual
  by_cases e : k = k'
  · subst e; simp [h]
  · simp [e]

/-- The first `d` slots on the way of `k` hold other keys. -/
def Skip (t : Table K V) (h : Nat) (k : K) (d : Nat) : Prop := ∀ e < d, ∃ k', (t.items ((h + e) % t.cap)).key = some k' ∧ k' ≠ k

theorem Skip.zero (t : Table K V) (h : Nat) (k : K) : Skip t h k 0 := fun e he => by omega

theorem Skip.succ {t : Table K V} {h : Nat} {k k' : K} {d : Nat} (s : Skip t h k d) (hk : (t.items ((h + d) % t.cap)).key = some k')
    (hn : k' ≠ k) : Skip t h k (d + 1) := by
  intro e he
  by_cases c : e = d
  · subst c; exact ⟨k', hk, hn⟩
  · exact s e (by omega)

theorem Skip.absent {H : K → Nat} {t : Table K V} (g : Good H t) {k : K} {d : Nat} (s : Skip t (H k) k d)
    (h : (t.items ((H k + d) % t.cap)).key = none ∨ t.cap ≤ d) : ∀ i < t.cap, (t.items i).key ≠ some k := by
  intro i hi hk
  obtain ⟨d', hd', e, ch⟩ := g.chain i hi k hk
  by_cases c : d' < d
  · obtain ⟨k', h1, h2⟩ := s d' c
    rw [← e, hk] at h1
    exact h2 (Option.some.inj h1).symm
  · cases h with
    | inl h =>
      by_cases c2 : d = d'
      · subst c2; rw [← e, hk] at h; cases h
      · exact ch d (by omega) h
    | inr h => omega

/-- Every slot is on the way of every key. -/
theorem reach {c : Nat} (h i : Nat) (hi : i < c) : ∃ e < c, (h + e) % c = i := by
  refine ⟨(i + (c - h % c)) % c, Nat.mod_lt _ (by omega), ?_⟩
  have hm := Nat.mod_lt h (show 0 < c by omega)
  rw [Nat.add_mod_mod]
  have e1 : h = c * (h / c) + h % c := (Nat.div_add_mod h c).symm
  have e2 : h + (i + (c - h % c)) = i + c * (h / c + 1) := by
    rw [Nat.mul_add, Nat.mul_one]; omega
  rw [e2, Nat.add_mul_mod_self_left, Nat.mod_eq_of_lt hi]

theorem Skip.lt {H : K → Nat} {t : Table K V} (g : Good H t) {k : K} {d : Nat} (s : Skip t (H k) k d) (hu : t.used < t.cap) : d < t.cap := by
  apply Classical.byContradiction
  intro hc
  have : (List.range t.cap).countP t.taken = (List.range t.cap).length := by
    rw [List.countP_eq_length]
    intro i hi
    obtain ⟨e, he, ee⟩ := reach (H k) i (List.mem_range.mp hi)
    obtain ⟨k', h1, _⟩ := s e (by omega)
    rw [ee] at h1
    simp [Table.taken, h1]
  have h2 := g.used
  rw [this, List.length_range] at h2
  omega

/-- The table represents a map. -/
def Rep (t : Table K V) (m : K → Option V) : Prop :=
  ∀ k v, m k = some v ↔ ∃ i < t.cap, (t.items i).key = some k ∧ (t.items i).val = .val v

theorem findLoop_spec {H : K → Nat} {t : Table K V} (g : Good H t) {m : K → Option V} (r : Rep t m) (k : K) :
    ∀ n d idx, t.cap ≤ d + n → Skip t (H k) k d → idx % t.cap = (H k + d) % t.cap →
      findLoop t k (H k) idx n = .ok (match m k with | some v => .found v | none => .tryProto) := by
  intro n
  induction n with
  | zero =>
    intro d idx hd s hi
    have hab := Skip.absent g s (Or.inr (by omega))
    have hm : m k = none := by
      cases e : m k with
      | none => rfl
      | some v => obtain ⟨i, hi, h1, _⟩ := (r k v).mp e; exact absurd h1 (hab i hi)
    have hlt := g.lt idx
    rw [findLoop, g.mask, Table.item_ok hlt]
    simp only [hm, bind, Except.bind]
    cases hk : (t.items (idx % t.cap)).key with
    | none => rfl
    | some k' =>
      have hne : k ≠ k' := fun e => hab _ hlt (e ▸ hk)
      simp only
      rw [if_neg (by have := (g.live _ hlt).1; revert this; cases (t.items (idx % t.cap)).val <;> simp),
        isKeyEqual_eq k k' _ (g.hash _ hlt _ hk), if_neg (by simpa using hne)]
  | succ n ih =>
    intro d idx hd s hi
    have hlt := g.lt idx
    rw [findLoop, g.mask, Table.item_ok hlt]
    simp only [bind, Except.bind]
    cases hk : (t.items (idx % t.cap)).key with
    | none =>
      have hab := Skip.absent g s (Or.inl (by rw [← hi]; exact hk))
      have hm : m k = none := by
        cases e : m k with
        | none => rfl
        | some v => obtain ⟨i, hi, h1, _⟩ := (r k v).mp e; exact absurd h1 (hab i hi)
      simp only [hm]
    | some k' =>
      simp only
      have hl := g.live _ hlt
      rw [if_neg (by have := hl.1; revert this; cases (t.items (idx % t.cap)).val <;> simp),
        isKeyEqual_eq k k' _ (g.hash _ hlt _ hk)]
      by_cases e : k = k'
      · subst e
        rw [if_pos (by simp)]
        cases hv : (t.items (idx % t.cap)).val with
        | closed => exact absurd hv hl.1
        | reserved => exact absurd hv hl.2
        | val v => simp only [(r k v).mpr ⟨_, hlt, hk, hv⟩]
        | tomb =>
          have hm : m k = none := by
            cases e : m k with
            | none => rfl
            | some v =>
              obtain ⟨i, hi2, h1, h2⟩ := (r k v).mp e
              have := g.uniq _ hi2 _ hlt k h1 hk
              subst this; rw [hv] at h2; cases h2
          simp only [hm]
      · rw [if_neg (by simpa using e)]
        exact ih (d + 1) _ (by omega) (s.succ (by rw [← hi]; exact hk) (fun x => e x.symm)) (succ_mod _ _ _ _ hi)

theorem findProperty_spec {H : K → Nat} {t : Table K V} (g : Good H t) {m : K → Option V} (r : Rep t m) (k : K) :
    findProperty t k (H k) = .ok (match m k with | some v => .found v | none => .tryProto) :=
  findLoop_spec g r k _ 0 _ (by omega) (Skip.zero _ _ _) (by simp)

/-- The value slot of a binding. -/
def Val.of : Option V → Val V
  | some v => .val v
  | none => .tomb

theorem Val.of_live (v : Option V) : Val.of v ≠ .closed ∧ Val.of v ≠ .reserved := by cases v <;> simp [Val.of]
theorem Val.of_val (v : Option V) (x : V) : Val.of v = .val x ↔ v = some x := by cases v <;> simp [Val.of]

/-- Map with one binding changed. -/
def upd (m : K → Option V) (k : K) (o : Option V) : K → Option V := fun k' => if k' = k then o else m k'

/-- A new key goes to the first empty slot on its way. -/
theorem good_insert {H : K → Nat} {t : Table K V} (g : Good H t) {m : K → Option V} (r : Rep t m) (k : K) (v : Option V) {d : Nat}
    (s : Skip t (H k) k d) (hd : d < t.cap) (hk : (t.items ((H k + d) % t.cap)).key = none) :
    let t' := { t.setItem ((H k + d) % t.cap) ⟨some k, H k, Val.of v⟩ with used := t.used + 1 }
    Good H t' ∧ Rep t' (upd m k v) := by
  have hlt := g.lt (H k + d)
  have hab := Skip.absent g s (Or.inl hk)
  generalize hi : (H k + d) % t.cap = i at *
  intro t'
  have hit : ∀ j, t'.items j = if j = i then ⟨some k, H k, Val.of v⟩ else t.items j := fun j => rfl
  have hcap : t'.cap = t.cap := rfl
  have hmono : ∀ j, (t.items j).key ≠ none → (t'.items j).key ≠ none := by
    intro j hj; rw [hit]; split <;> simp_all
  refine ⟨⟨g.pow, ?_, ?_, ?_, ?_, ?_, ?_, g.next, g.opn⟩, ?_⟩
  · intro j hj; rw [hit]; split
    · simp
    · exact g.empty j hj
  · intro j hj k' ; rw [hit]; split
    · intro e; cases e; rfl
    · exact g.hash j hj k'
  · intro a ha b hb k'; rw [hit, hit]; split <;> split
    · intros; simp_all
    · intro e1 e2; cases e1; exact absurd e2 (hab b hb)
    · intro e1 e2; cases e2; exact absurd e1 (hab a ha)
    · exact g.uniq a ha b hb k'
  · intro j hj k'; rw [hit]; split
    · rename_i e; subst e
      intro e; cases e
      refine ⟨d, hd, hi.symm, ?_⟩
      intro e he
      obtain ⟨k'', h1, _⟩ := s e he
      exact hmono ((H k + e) % t.cap) (by rw [h1]; simp)
    · intro e
      obtain ⟨d', h1, h2, h3⟩ := g.chain j hj k' e
      exact ⟨d', h1, h2, fun e he => hmono _ (h3 e he)⟩
  · have h1 : t.taken i = false := by simp [Table.taken, hk]
    have h2 := countP_update t.taken i t.cap hlt h1
    show t.used + 1 = _
    rw [g.used, ← h2]
    apply List.countP_congr
    intro j _
    simp only [Table.taken, hit]
    split <;> simp
  · intro j hj; rw [hit]; split
    · exact Val.of_live v
    · exact g.live j hj
  · intro k' v'
    unfold upd
    constructor
    · split
      · rename_i e; intro hv; subst e
        exact ⟨i, hlt, by rw [hit]; simp, by rw [hit]; simp [Val.of_val, hv]⟩
      · intro hv
        obtain ⟨j, hj, h1, h2⟩ := (r k' v').mp hv
        have : j ≠ i := by intro e; subst e; rw [hk] at h1; cases h1
        exact ⟨j, hj, by rw [hit, if_neg this]; exact h1, by rw [hit, if_neg this]; exact h2⟩
    · rintro ⟨j, hj, h1, h2⟩
      rw [hit] at h1 h2
      split at h1
      · rename_i e; subst e
        cases h1
        simp only [if_true] at h2 ⊢
        exact (Val.of_val _ _).mp h2
      · rename_i e
        rw [if_neg e] at h2
        have : k' ≠ k := by intro e; subst e; exact hab j hj h1
        rw [if_neg this]
        exact (r k' v').mpr ⟨j, hj, h1, h2⟩

/-- The value of a key which has a slot is replaced. -/
theorem good_write {H : K → Nat} {t : Table K V} (g : Good H t) {m : K → Option V} (r : Rep t m) (k : K) (v : Option V) {i : Nat}
    (hlt : i < t.cap) (hk : (t.items i).key = some k) :
    let t' := t.setItem i { t.items i with val := Val.of v }
    Good H t' ∧ Rep t' (upd m k v) := by
  intro t'
  have hit : ∀ j, t'.items j = if j = i then { t.items i with val := Val.of v } else t.items j :=
    fun j => rfl
  have hkey : ∀ j, (t'.items j).key = (t.items j).key := by intro j; rw [hit]; split <;> simp_all
  have hhash : ∀ j, (t'.items j).hash = (t.items j).hash := by intro j; rw [hit]; split <;> simp_all
  refine ⟨⟨g.pow, ?_, ?_, ?_, ?_, ?_, ?_, g.next, g.opn⟩, ?_⟩
  · intro j hj; rw [hkey, hit]; split
    · rename_i e; subst e; rw [hk]; simp
    · exact g.empty j hj
  · intro j hj k'; rw [hkey, hhash]; exact g.hash j hj k'
  · intro a ha b hb k'; rw [hkey, hkey]; exact g.uniq a ha b hb k'
  · intro j hj k'; rw [hkey]; intro e
    obtain ⟨d', h1, h2, h3⟩ := g.chain j hj k' e
    exact ⟨d', h1, h2, fun e he => by rw [hkey]; exact h3 e he⟩
  · show t.used = _
    rw [g.used]
    apply List.countP_congr
    intro j _
    simp only [Table.taken, hkey]
  · intro j hj; rw [hit]; split
    · exact Val.of_live v
    · exact g.live j hj
  · intro k' v'
    unfold upd
    constructor
    · split
      · rename_i e; intro hv; subst e
        exact ⟨i, hlt, by rw [hkey, hk], by rw [hit]; simp [Val.of_val, hv]⟩
      · intro hv
        rename_i hne
        obtain ⟨j, hj, h1, h2⟩ := (r k' v').mp hv
        have : j ≠ i := by intro e; subst e; rw [hk] at h1; cases h1; exact hne rfl
        exact ⟨j, hj, by rw [hkey]; exact h1, by rw [hit, if_neg this]; exact h2⟩
    · rintro ⟨j, hj, h1, h2⟩
      rw [hkey] at h1
      rw [hit] at h2
      split at h2
      · rename_i e; subst e
        rw [hk] at h1; cases h1
        rw [if_pos rfl]
        exact (Val.of_val _ _).mp h2
      · rename_i e
        have : k' ≠ k := by intro e2; subst e2; exact e (g.uniq j hj i hlt k' h1 hk)
        rw [if_neg this]
        exact (r k' v').mpr ⟨j, hj, h1, h2⟩

/-- The loop of `set_property` ends at the slot of the key, at the empty slot for it, or after ten other keys. -/
theorem probe_spec {H : K → Nat} {t : Table K V} (g : Good H t) (k : K) :
    ∀ fuel n idx, 11 ≤ fuel + n → n ≤ 9 → Skip t (H k) k n → idx % t.cap = (H k + n) % t.cap →
      ∃ d, d ≤ 9 ∧ Skip t (H k) k d ∧
        (((t.items ((H k + d) % t.cap)).key = none ∧ probe t k (H k) fuel idx n = .ok (.empty ((H k + d) % t.cap) d)) ∨
         ((t.items ((H k + d) % t.cap)).key = some k ∧ probe t k (H k) fuel idx n = .ok (.match ((H k + d) % t.cap) d)) ∨
         (Skip t (H k) k 10 ∧ probe t k (H k) fuel idx n = .ok .full)) := by
  intro fuel
  induction fuel with
  | zero => intro n idx h1 h2; omega
  | succ fuel ih =>
    intro n idx h1 h2 s hi
    have hlt := g.lt idx
    rw [probe, g.mask, Table.item_ok hlt]
    simp only [bind, Except.bind]
    rw [hi]
    rw [hi] at hlt
    cases hk : (t.items ((H k + n) % t.cap)).key with
    | none => exact ⟨n, h2, s, Or.inl ⟨hk, rfl⟩⟩
    | some k' =>
      simp only
      rw [isKeyEqual_eq k k' _ (g.hash _ hlt _ hk)]
      by_cases e : k = k'
      · subst e
        exact ⟨n, h2, s, Or.inr (Or.inl ⟨hk, by simp⟩)⟩
      · rw [if_neg (by simpa using e)]
        have s' := s.succ hk (fun x => e x.symm)
        by_cases hn : n > 8
        · have : n = 9 := by omega
          subst this
          exact ⟨9, h2, s, Or.inr (Or.inr ⟨s', by simp⟩)⟩
        · rw [if_neg hn]
          exact ih (n + 1) _ (by omega) (by omega) s' (by rw [← hi]; exact succ_mod _ _ _ _ hi)

/-- The slot for a key which the new table does not have. -/
theorem claim_spec {H : K → Nat} {t : Table K V} (g : Good H t) (k : K) (hu : t.used < t.cap) (hab : ∀ i < t.cap, (t.items i).key ≠ some k) :
    ∀ fuel d, t.cap ≤ fuel + d → Skip t (H k) k d →
      ∃ d', d' < t.cap ∧ Skip t (H k) k d' ∧ (t.items ((H k + d') % t.cap)).key = none ∧
        claim k (H k) fuel t ((H k + d) % t.cap) =
          .ok ({ t.setItem ((H k + d') % t.cap) ⟨some k, H k, .tomb⟩ with used := t.used + 1 }, (H k + d') % t.cap) := by
  intro fuel
  induction fuel with
  | zero => intro d h s; have := Skip.lt g s hu; omega
  | succ fuel ih =>
    intro d h s
    have hlt := g.lt (H k + d)
    rw [claim, Table.item_ok hlt]
    simp only [bind, Except.bind]
    cases hk : (t.items ((H k + d) % t.cap)).key with
    | none =>
      refine ⟨d, Skip.lt g s hu, s, hk, ?_⟩
      simp only
      rw [g.empty _ hlt hk]
    | some k' =>
      simp only
      have hne : k ≠ k' := fun e => hab _ hlt (e ▸ hk)
      rw [isKeyEqual_eq k k' _ (g.hash _ hlt _ hk), if_neg (by simpa using hne), g.mask,
        Nat.mod_add_mod, Nat.add_assoc]
      exact ih (d + 1) (by omega) (s.succ hk (fun x => hne x.symm))

end Verif.Obj
