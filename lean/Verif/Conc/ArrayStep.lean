import Verif.Conc.ArrayMem
import Verif.Conc.ArraySpec

/-! Every step keeps the invariant. -/
namespace Verif.Conc

def Good (n : Nat) (l : List Nat) : Res → Prop
  | .ok s none => Inv n s l
  | .ok s (some e) => ∃ l', Atomic l e l' ∧ Inv n s l'
  | .bad => False
  | .no => True

theorem ofList_set (l : List Nat) (i w j : Nat) (hi : i < l.length) : ofList (l.set i w) j = if j = i then .val w else ofList l j := by
  unfold ofList
  rw [List.getElem?_set]
  by_cases h : i = j
  · subst h; simp [hi]
  · simp [h, Ne.symm h]

theorem ofList_append (l : List Nat) (w j : Nat) : ofList (l ++ [w]) j = if j = l.length then .val w else ofList l j := by
  unfold ofList
  by_cases h : j = l.length
  · subst h; simp
  · rw [if_neg h]
    by_cases h' : j < l.length
    · rw [List.getElem?_append_left h']
    · rw [List.getElem?_eq_none (by simp; omega), List.getElem?_eq_none (by omega)]

variable {n : Nat} {s : St} {l : List Nat} {t : Nat}

theorem good_acc (h : Inv n s l) (ht : t < n) (o : Op) (k : Nat) (hl : s.th t = .acc o k) :
    Good n l (if o.index < s.cap k then look s t o k else .bad) := by
  have hi := h.th t
  rw [hl] at hi
  have hat : At s.toMem l o k := hi
  rw [if_pos hat.lt]
  have pz : ∀ k', pend k' (s.th t) = 0 := by rw [hl]; intro _; rfl
  have hg : grower (s.th t) = o.isPush := by rw [hl]; rfl
  unfold look
  have hrel := h.sh.rel o.index
  cases hm : s.mem k o.index with
  | closed =>
    simp only [Good]
    exact h.local t ht _ ⟨hat, hm⟩ (by intro _ _ _ ho; cases ho) (by rw [hg]; rfl) (by intro k'; rw [pz]; rfl)
  | tomb =>
    have hh := hat.here h.sh (by rw [hm]; simp)
    rw [hh.cell] at hrel
    have hx : ofList l o.index = .tomb := hrel.symm.trans hm
    have hge := ofList_tomb hx
    cases o with
    | push i v =>
      simp only [Good]
      exact h.local t ht _ ⟨hat, by simp, by simp [Op.isPush], by simp, by simp⟩ (by intro _ _ _ ho; cases ho) (by rw [hg]; rfl) (by intro k'; rw [pz]; rfl)
    | read i => exact ⟨l, .range l _ hge, h.quit t ht pz (by rw [hg]; simp [Op.isPush])⟩
    | write i v => exact ⟨l, .range l _ hge, h.quit t ht pz (by rw [hg]; simp [Op.isPush])⟩
    | cas i old new => exact ⟨l, .range l _ hge, h.quit t ht pz (by rw [hg]; simp [Op.isPush])⟩
  | val v =>
    have hh := hat.here h.sh (by rw [hm]; simp)
    rw [hh.cell] at hrel
    have hx : ofList l o.index = .val v := hrel.symm.trans hm
    have hv := ofList_val hx
    cases o with
    | push i w =>
      simp only [Good]
      exact h.local t ht _ ⟨hat, by simp, by simp, by simp, by simp⟩ (by intro _ _ _ ho; cases ho) (by rw [hg]; rfl) (by intro k'; rw [pz]; rfl)
    | read i => exact ⟨l, .read l i v hv, h.quit t ht pz (by rw [hg]; simp [Op.isPush])⟩
    | write i w =>
      simp only [Good]
      exact h.local t ht _ ⟨hat, by simp, by simp, by simp, by simp⟩ (by intro _ _ _ ho; cases ho) (by rw [hg]; rfl) (by intro k'; rw [pz]; rfl)
    | cas i old new =>
      dsimp only
      split
      · next hvo =>
        subst hvo
        simp only [Good]
        exact h.local t ht _ ⟨hat, by simp, by simp, by simp, by intro i' old' new' ho; cases ho; rfl⟩ (by intro _ _ _ ho; cases ho) (by rw [hg]; rfl)
          (by intro k'; rw [pz]; rfl)
      · next hvo => exact ⟨l, .casNo l i old new v hv hvo, h.quit t ht pz (by rw [hg]; simp [Op.isPush])⟩

theorem good_next (h : Inv n s l) (ht : t < n) (o : Op) (k : Nat) (r : Rules) (ch : Choice) (hl : s.th t = .next o k) : Good n l (step r s t ch) := by
  have hi := h.th t
  rw [hl] at hi
  obtain ⟨hat, hc⟩ : At s.toMem l o k ∧ s.mem k o.index = .closed := hi
  have pz : ∀ k', pend k' (s.th t) = 0 := by rw [hl]; intro _; rfl
  have hg : grower (s.th t) = o.isPush := by rw [hl]; rfl
  have hk : k < s.last := by
    have := hat.le
    have hf := h.sh.front o.index
    by_cases hk : k = s.last
    · subst hk; exact absurd hc hf
    · omega
  have hat' : At s.toMem l o (k + 1) := by
    have hlt := hat.lt
    have hcap := h.sh.caps k hk
    refine ⟨hk, Nat.lt_of_lt_of_le hlt hcap, ?_, hat.push⟩
    intro hd
    by_cases hk' : k = s.data
    · subst hk'; exact hc
    · exact hat.moved (by omega)
  have hcopy : o.isPush = false → LInv s.toMem l (.copy (.op o) k .start) := fun hp =>
    ⟨hk, ⟨hp, hat.lt, hc⟩, trivial, by intro i v ho; cases ho⟩
  unfold step
  rw [hl]
  dsimp only
  rw [if_pos hk]
  cases o with
  | read i => exact h.local t ht _ hat' (by intro _ _ _ ho; cases ho) (by rw [hg]; rfl) (by intro k'; rw [pz]; rfl)
  | push i v => exact h.local t ht _ hat' (by intro _ _ _ ho; cases ho) (by rw [hg]; rfl) (by intro k'; rw [pz]; rfl)
  | write i v => exact h.local t ht _ (hcopy rfl) (by intro _ _ _ ho; cases ho) (by rw [hg]; rfl) (by intro k'; rw [pz]; rfl)
  | cas i old new => exact h.local t ht _ (hcopy rfl) (by intro _ _ _ ho; cases ho) (by rw [hg]; rfl) (by intro k'; rw [pz]; rfl)

/-- Writing an element and finishing. -/
theorem Inv.write (h : Inv n s l) {k i w : Nat} {l' : List Nat} (hh : Here s.toMem k i) (hi : i < s.cap s.data)
    (hl : ∀ j, ofList l' j = if j = i then .val w else ofList l j) (hlen : l.length ≤ l'.length) (hsz : l'.length ≤ s.size)
    (pz : ∀ k, pend k (s.th t) = 0)
    (hg : grower (s.th t) = false → l'.length = l.length) :
    Sh (s.put k i (.val w)).toMem l' ∧
    (∀ t', t' ≠ t → LInv s.toMem l (s.th t') → LInv (s.put k i (.val w)).toMem l' (s.th t')) ∧
    (∀ k', k' ≤ s.last → (s.put k i (.val w)).open k' + pend k' (s.th t) =
      unclosed (s.put k i (.val w)).toMem k' + sumTo (fun t => pend k' (s.th t)) n) := by
  refine ⟨h.sh.write hh hi hsz hl, ?_, ?_⟩
  · intro t' hne hL
    refine LInv.mono hL rfl rfl rfl rfl ?_ hlen ?_ ?_
    · intro k' i' hc
      show (mput s.toMem k i (.val w)).mem k' i' = _
      rw [mput_eq, if_neg (by rintro ⟨rfl, rfl⟩; exact hh.nc hc)]
      exact hc
    · intro hgt
      by_cases hgt' : grower (s.th t) = true
      · have h1 := (h.busy t').mp hgt
        have h2 := (h.busy t).mp hgt'
        rw [h1] at h2
        exact absurd (Option.some.inj h2) hne
      · exact hg (by simpa using hgt')
    · intro k' i' v' ho hinv
      obtain ⟨h1, h2, h3⟩ := hinv
      refine ⟨h1, ?_, ?_⟩
      · show (mput s.toMem k i (.val w)).mem k' i' ≠ _
        rw [mput_eq]
        split
        · simp
        · exact h2
      · show (mput s.toMem k i (.val w)).mem (k' + 1) i' = _
        rw [mput_eq, if_neg]
        · exact h3
        · rintro ⟨rfl, rfl⟩
          rcases hh.now with hd | ⟨_, hd⟩
          · have : k' = s.data := h1
            have hd' : k' + 1 = s.data := hd
            omega
          · rw [← h1] at hd; exact h2 hd
  · intro k' hk'
    have h1 : unclosed (s.put k i (.val w)).toMem k' = unclosed s.toMem k' := unclosed_put (m := s.toMem) hh.nc (by simp) k'
    have h2 : (s.put k i (.val w)).open k' = s.open k' := rfl
    have := h.count k' hk'
    rw [h1, h2, pz]
    omega

theorem good_swap (h : Inv n s l) (ht : t < n) (o : Op) (k : Nat) (cur : Slot) (ch : Choice) (r : Rules) (hl : s.th t = .swap o k cur) :
    Good n l (step r s t ch) := by
  have hi := h.th t
  rw [hl] at hi
  obtain ⟨hat, hnc, hpt, hnr, hcas⟩ : At s.toMem l o k ∧ cur ≠ .closed ∧ (cur = .tomb → o.isPush = true) ∧ (∀ i, o ≠ .read i) ∧
    (∀ i old new, o = .cas i old new → cur = .val old) := hi
  have pz : ∀ k', pend k' (s.th t) = 0 := by rw [hl]; intro _; rfl
  have hg : grower (s.th t) = o.isPush := by rw [hl]; rfl
  unfold step
  rw [hl]
  dsimp only
  rw [if_pos hat.lt]
  split
  · next hc =>
    have hm := hc.1
    have hh := hat.here h.sh (by rw [hm]; exact hnc)
    have hrel := h.sh.rel o.index
    rw [hh.cell, hm] at hrel
    -- the capacity of the current buffer
    have hcap : o.index < s.cap s.data := by
      rcases hh.now with hd | ⟨hd, hcl⟩
      · have := hat.lt; rw [hd] at this; exact this
      · exact h.sh.lt_cap (by rw [hcl]; simp)
    have old : o.isPush = false → o.index < l.length ∧ ∃ v, cur = .val v ∧ l[o.index]? = some v := by
      intro hp
      cases cur with
      | closed => exact absurd rfl hnc
      | tomb => rw [hpt rfl] at hp; simp at hp
      | val v =>
        have hv := ofList_val hrel.symm
        exact ⟨(List.getElem?_eq_some_iff.mp hv).1, v, rfl, hv⟩
    have put : o.isPush = false → Inv n ((s.put k o.index (.val o.value)).finish t) (l.set o.index o.value) := by
      intro hp
      have hlt := (old hp).1
      obtain ⟨p1, p2, p3⟩ := h.write (t := t) (l' := l.set o.index o.value) hh hcap (fun j => ofList_set l o.index o.value j hlt) (by simp) (by simp; exact h.sh.len) pz (by simp)
      refine h.finish (s1 := s.put k o.index (.val o.value)) t ht rfl rfl p1 p2 rfl ?_ p3
      rw [hg, hp]
      rintro (hb | hb)
      · rw [List.length_set]; exact h.free hb
      · simp at hb
    cases o with
    | read i => exact absurd rfl (hnr i)
    | write i v => exact ⟨_, .write l i v (old rfl).1, put rfl⟩
    | cas i o' nw =>
      have := hcas i o' nw rfl
      subst this
      obtain ⟨_, v, hv1, hv2⟩ := old rfl
      cases hv1
      exact ⟨_, .casYes l i o' nw hv2, put rfl⟩
    | push i v =>
      obtain ⟨q1, q2, q3⟩ := hat.push i v rfl
      subst q2
      obtain ⟨p1, p2, p3⟩ := h.write (t := t) (l' := l ++ [v]) (w := v) hh hcap (fun j => ofList_append l v j) (by simp) (by simp; omega) pz
        (by rw [hg]; simp [Op.isPush])
      refine ⟨l ++ [v], .push l v, ?_⟩
      refine h.finish (s1 := s.put k l.length (.val v)) t ht rfl rfl p1 p2 rfl ?_ p3
      intro _
      exact ⟨q1, by simp; exact q3.symm⟩
  · exact h.local t ht _ hat (by intro _ _ _ ho; cases ho) (by rw [hg]; rfl) (by intro k'; rw [pz]; rfl)

end Verif.Conc
