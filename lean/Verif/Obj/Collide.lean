import Verif.Obj.Ops

/-! Ten keys with one hash leave no room for an eleventh. -/
namespace Verif.Obj

variable {K V : Type} [DecidableEq K]

theorem nodup_length_le (n : Nat) : ∀ l : List Nat, l.Nodup → (∀ x ∈ l, x < n) → l.length ≤ n := by
  induction n with
  | zero => intro l _ h; cases l with
    | nil => simp
    | cons a l => exact absurd (h a (by simp)) (by omega)
  | succ n ih =>
    intro l hn h
    have h2 := ih (l.erase n) (hn.erase n) (fun x hx => by
      have := (List.Nodup.mem_erase_iff hn).mp hx
      have := h x this.2
      omega)
    rw [List.length_erase] at h2
    split at h2 <;> omega

/-- The distance of a key from the slot its hash points to. -/
theorem Skip.ten {H : K → Nat} {t : Table K V} (g : Good H t) {k : K} {ks : List K} (hn : ks.Nodup) (hl : 10 ≤ ks.length)
    (hk : ∀ x ∈ ks, H x = H k ∧ ∃ i < t.cap, (t.items i).key = some x) {d : Nat} (hd : d ≤ 9) :
    (t.items ((H k + d) % t.cap)).key ≠ none ∨ t.cap ≤ d := by
  apply Classical.byContradiction
  intro hc
  have hc1 : (t.items ((H k + d) % t.cap)).key = none := Classical.byContradiction fun h => hc (Or.inl h)
  have hc2 : d < t.cap := Nat.lt_of_not_le fun h => hc (Or.inr h)
  have hch : ∀ x ∈ ks, ∃ e, e < d ∧ (t.items ((H k + e) % t.cap)).key = some x := by
    intro x hx
    obtain ⟨hh, i, hi, hkey⟩ := hk x hx
    obtain ⟨e, he, ei, hne⟩ := g.chain i hi x hkey
    rw [hh] at ei hne
    refine ⟨e, ?_, by rw [← ei]; exact hkey⟩
    rcases Nat.lt_trichotomy e d with h | h | h
    · exact h
    · subst h; rw [← ei, hkey] at hc1; cases hc1
    · exact absurd hc1 (hne d h)
  have key : ∀ l : List K, l.Nodup → (∀ x ∈ l, x ∈ ks) →
      ∃ ds : List Nat, ds.Nodup ∧ ds.length = l.length ∧ ∀ e ∈ ds, e < d ∧ ∃ x ∈ l, (t.items ((H k + e) % t.cap)).key = some x := by
    intro l
    induction l with
    | nil => intro _ _; exact ⟨[], by simp, rfl, by simp⟩
    | cons a l ih =>
      intro hnd hsub
      rw [List.nodup_cons] at hnd
      obtain ⟨ds, h1, h2, h3⟩ := ih hnd.2 (fun x hx => hsub x (List.mem_cons_of_mem _ hx))
      obtain ⟨e, he, hx⟩ := hch a (hsub a (by simp))
      refine ⟨e :: ds, List.nodup_cons.mpr ⟨?_, h1⟩, by simp [h2], ?_⟩
      · intro hm
        obtain ⟨_, y, hy, hyk⟩ := h3 e hm
        rw [hx] at hyk; cases hyk
        exact hnd.1 hy
      · intro e' he'
        rcases List.mem_cons.mp he' with rfl | hm
        · exact ⟨he, a, by simp, hx⟩
        · obtain ⟨q1, y, q2, q3⟩ := h3 e' hm
          exact ⟨q1, y, List.mem_cons_of_mem _ q2, q3⟩
  obtain ⟨ds, h1, h2, h3⟩ := key ks hn (fun _ h => h)
  have := nodup_length_le d ds h1 (fun x hx => (h3 x hx).1)
  omega

/-- With ten such keys in the map and memory for everything, a write to a key with this hash and without a slot ends in undefined
behaviour. -/
theorem setLoop_collide {H : K → Nat} (dyn : V → Bool) (o : Nat) (k : K) (v : V) (ks : List K) (hn : ks.Nodup) (hl : 10 ≤ ks.length)
    (hh : ∀ x ∈ ks, H x = H k) :
    ∀ (fuel : Nat) {w : World K V} {sp : List (SObj K V)} (_ : Sim H w sp) {ti j : Nat} {ob : Object} {t : Table K V} {so : SObj K V}
      (_ : w.objs[o]? = some ob) (_ : ob.table = some ti) (_ : w.tables[ti]? = some t) (_ : t.cap = 2 ^ j) (_ : 29 ≤ fuel + j)
      (_ : sp[o]? = some so) (_ : ∀ x ∈ ks, so.map x ≠ none) (_ : ∀ i < t.cap, (t.items i).key ≠ some k),
      setLoop (fun _ _ => true) dyn o k (H k) (.val v) fuel w ti = .error .ub := by
  intro fuel
  induction fuel with
  | zero =>
    intro w sp s ti j ob t so ho ht htb hj hf hs hm hab
    obtain ⟨so', h1, h2, h3, h4, h5, h6⟩ := s.obj o ob ho
    obtain ⟨hp, tb, htb', g, r⟩ := h6 ti ht
    rw [htb] at htb'; cases htb'
    obtain ⟨j', _, h27, e⟩ := g.pow
    have : j = j' := two_pow_inj (hj.symm.trans e)
    omega
  | succ fuel ih =>
    intro w sp s ti j ob t so ho ht htb hj hf hs hm hab
    obtain ⟨so', h1, h2, h3, h4, h5, h6⟩ := s.obj o ob ho
    rw [hs] at h1; cases h1
    obtain ⟨hp, tb, htb', g, r⟩ := h6 ti ht
    rw [htb] at htb'; cases htb'
    have hks : ∀ x ∈ ks, H x = H k ∧ ∃ i < t.cap, (t.items i).key = some x := by
      intro x hx
      refine ⟨hh x hx, ?_⟩
      obtain ⟨y, hy⟩ := Option.ne_none_iff_exists'.mp (hm x hx)
      obtain ⟨i, hi, h, _⟩ := (r x y).mp hy
      exact ⟨i, hi, h⟩
    obtain ⟨d, hd, sk, hcase⟩ := probe_spec g k 11 0 (H k) (by omega) (by omega) (Skip.zero _ _ _) (by simp)
    have hlt := g.lt (H k + d)
    rw [setLoop]
    simp only [setOnce, World.table_ok htb, bind, Except.bind]
    rcases hcase with ⟨hk, hpr⟩ | ⟨hk, hpr⟩ | ⟨sk10, hpr⟩
    · exfalso
      rcases Skip.ten g hn hl hks hd with h | h
      · exact h hk
      · obtain ⟨e, he, ee⟩ := reach (H k) ((H k + d) % t.cap) hlt
        obtain ⟨k', hk', _⟩ := sk e (by omega)
        rw [ee, hk] at hk'; cases hk'
    · exact absurd hk (hab _ hlt)
    · rw [hpr]
      simp only
      rcases resize_spec (fun _ _ => true) s ho ht htb hj with ⟨hr, ⟨_, _, _, _, hf⟩, hsim⟩ |
          ⟨h27, w', ob', t', hr, hq, hsim, ho', ht', hp', htb', hc', hfk⟩ | ⟨h27, _, hr⟩
      · cases hf
      · rw [hr]
        simp only [if_true, World.obj_ok ho', ht']
        refine ih hsim ho' ht' htb' hc' (by omega) hs hm ?_
        intro i hi hki
        obtain ⟨q, hq, h⟩ := hfk i hi k hki
        exact hab q hq h
      · rw [hr]

end Verif.Obj
