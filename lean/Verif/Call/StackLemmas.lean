import Verif.Call.Stack

/-
The layout of frames in stack objects, and how each step changes it.
-/
namespace Verif.Stack

/-- An active frame: of a plain function, with registers at `b` of the stack object `i`, or in the stack object `r` of a generator or
closure. -/
inductive Fr
  | plain (i b n : Nat)
  | gen (r n : Nat)
  deriving Repr, DecidableEq

/-- Slots for a frame; the stack object of a generator has one more slot, for the link. -/
def Fr.size : Fr → Nat
  | .plain _ _ n => n + 4
  | .gen _ n => n + 5

def total : List Fr → Nat
  | [] => 0
  | f :: l => f.size + total l

def Fr.item : Fr → Item
  | .plain _ _ n => .frame n
  | .gen r _ => .ptr r

/-- Where the registers are. -/
def Fr.place : Fr → Nat × Nat
  | .plain i b _ => (i, b)
  | .gen r _ => (r, 4)

/-- The items on the stack object `i`, with the places of registers. -/
def spots (i : Nat) : List Item → List (Item × Nat × Nat)
  | [] => []
  | .frame n :: l => (.frame n, i, sizes l + 4) :: spots i l
  | .ptr r :: l => (.ptr r, r, 4) :: spots i l

def allSpots : List Nat → List (List Item) → List (Item × Nat × Nat)
  | i :: ns, l :: its => spots i l ++ allSpots ns its
  | _, _ => []

def Fr.spot (f : Fr) : Item × Nat × Nat := (f.item, f.place)

def Fr.id? : Fr → Option Nat
  | .plain _ _ _ => none
  | .gen r _ => some r

/-- `r` is the stack object of a generator with `n` registers. -/
def IsGen (h : Nat → Option Obj) (r n : Nat) : Prop := ∃ l, h r = some ⟨true, n + 5, l, [.frame n]⟩

/-- Stack objects which are not reentrant, from the topmost to the first, with what is on them. -/
inductive Chain (g : Cfg) (h : Nat → Option Obj) : List Nat → List (List Item) → Prop
  | nil : Chain g h [] []
  | cons (i : Nat) (l : List Item) (ns : List Nat) (its : List (List Item)) (hi : h i = some ⟨false, g.cap, ns.head?, l⟩) (hn : i ∉ ns)
    (hs : 1 + sizes l ≤ g.cap) (hc : Chain g h ns its) : Chain g h (i :: ns) (l :: its)

def upd (s : Nat → Option Nat) (r : Nat) (v : Option Nat) : Nat → Option Nat := fun q => if q = r then v else s q

/-- The frames `fs` are on the stack objects `ns`; the generators in `susp` are not active. -/
structure Base (g : Cfg) (c : Ctx) (ns : List Nat) (its : List (List Item)) (fs : List Fr) (susp : Nat → Option Nat) : Prop where
  chain : Chain g c.heap ns its
  full  : ∀ l ∈ its.tail, l ≠ []
  flat  : allSpots ns its = fs.map Fr.spot
  gens  : ∀ r n, Fr.gen r n ∈ fs → IsGen c.heap r n
  nodup : (fs.filterMap Fr.id?).Nodup
  susp  : ∀ r n, susp r = some n → IsGen c.heap r n ∧ r ∉ fs.filterMap Fr.id?
  fresh : ∀ j, c.next ≤ j → c.heap j = none
  pos   : ∀ i b n, Fr.plain i b n ∈ fs → 0 < n

theorem Chain.mem {g : Cfg} {h : Nat → Option Obj} {ns : List Nat} {its : List (List Item)} (hc : Chain g h ns its) :
    ∀ i ∈ ns, ∃ l q, h i = some ⟨false, g.cap, q, l⟩ := by
  induction hc with
  | nil => simp
  | cons i l ns its hi hn hs hc ih =>
    intro j hj
    rcases List.mem_cons.1 hj with rfl | hj
    · exact ⟨_, _, hi⟩
    · exact ih j hj

theorem Chain.other {g : Cfg} {h h' : Nat → Option Obj} {ns : List Nat} {its : List (List Item)} (hc : Chain g h ns its)
    (he : ∀ i ∈ ns, h' i = h i) : Chain g h' ns its := by
  induction hc with
  | nil => exact .nil
  | cons i l ns its hi hn hs hc ih => exact .cons i l ns its (by rw [he i (by simp), hi]) hn hs (ih fun j hj => he j (by simp [hj]))

theorem Chain.length {g : Cfg} {h : Nat → Option Obj} {ns : List Nat} {its : List (List Item)} (hc : Chain g h ns its) : ns.length = its.length := by
  induction hc with
  | nil => rfl
  | cons => simp [*]

/-- A generator is not one of the other stack objects. -/
theorem Chain.not_gen {g : Cfg} {h : Nat → Option Obj} {ns : List Nat} {its : List (List Item)} (hc : Chain g h ns its) {r n : Nat}
    (hr : IsGen h r n) : r ∉ ns := fun hm => by
  obtain ⟨l, q, h1⟩ := hc.mem r hm
  obtain ⟨p, h2⟩ := hr
  rw [h1] at h2
  cases h2

variable {g : Cfg} {c : Ctx} {ns : List Nat} {its : List (List Item)} {fs : List Fr} {susp : Nat → Option Nat}

theorem Base.lt (h : Base g c ns its fs susp) {i : Nat} (o : Obj) (hi : c.heap i = some o) : i < c.next :=
  Nat.lt_of_not_le fun a => by have := h.fresh i a; rw [hi] at this; cases this

/-- The fields of the context other than the heap do not matter. -/
theorem Base.ctx (h : Base g c ns its fs susp) (c' : Ctx) (hh : c'.heap = c.heap) (hn : c.next ≤ c'.next) : Base g c' ns its fs susp where
  chain := by rw [hh]; exact h.chain
  full := h.full
  flat := h.flat
  gens := by rw [hh]; exact h.gens
  nodup := h.nodup
  susp := by rw [hh]; exact h.susp
  fresh j hj := by rw [hh]; exact h.fresh j (by omega)
  pos := h.pos

/-- Forget a generator. -/
theorem Base.forget (h : Base g c ns its fs susp) (r : Nat) : Base g c ns its fs (upd susp r none) where
  chain := h.chain
  full := h.full
  flat := h.flat
  gens := h.gens
  nodup := h.nodup
  susp q n hq := by
    simp only [upd] at hq
    split at hq
    · cases hq
    · exact h.susp q n hq
  fresh := h.fresh
  pos := h.pos

theorem upd_same (s : Nat → Option Nat) (r : Nat) (v : Option Nat) : upd s r v r = v := by simp [upd]

theorem upd_upd (s : Nat → Option Nat) (r : Nat) (v w : Option Nat) : upd (upd s r v) r w = upd s r w := by
  funext q; simp only [upd]; split <;> rfl

theorem upd_self (s : Nat → Option Nat) (r : Nat) : upd s r (s r) = s := by
  funext q; simp only [upd]; split
  · rename_i e; rw [e]
  · rfl

theorem not_mem_of_id {fs : List Fr} {r : Nat} (h : r ∉ fs.filterMap Fr.id?) (n : Nat) : Fr.gen r n ∉ fs :=
  fun a => h (List.mem_filterMap.2 ⟨_, a, rfl⟩)

/-- A change of an object which is not in use. -/
theorem Base.put_other (h : Base g c ns its fs susp) (r : Nat) (o : Obj) (hr : r < c.next) (h1 : r ∉ ns) (h2 : r ∉ fs.filterMap Fr.id?)
    (h3 : susp r = none) : Base g (c.put r o) ns its fs susp where
  chain := h.chain.other fun i hi => if_neg fun e : i = r => h1 (e ▸ hi)
  full := h.full
  flat := h.flat
  gens q n hq := by
    obtain ⟨l, hl⟩ := h.gens q n hq
    refine ⟨l, ?_⟩
    have : q ≠ r := fun e => not_mem_of_id h2 n (e ▸ hq)
    simp [Ctx.put, this, hl]
  nodup := h.nodup
  susp q n hq := by
    have hs := h.susp q n hq
    have : q ≠ r := fun e => by rw [e, h3] at hq; cases hq
    obtain ⟨l, hl⟩ := hs.1
    exact ⟨⟨l, by simp [Ctx.put, this, hl]⟩, hs.2⟩
  fresh j hj := by
    have hj' : c.next ≤ j := hj
    have : j ≠ r := by omega
    simp [Ctx.put, this, h.fresh j hj']
  pos := h.pos

/-- A generator is added which is not active. -/
theorem Base.add (h : Base g c ns its fs susp) (r n : Nat) (hg : IsGen c.heap r n) (h2 : r ∉ fs.filterMap Fr.id?) :
    Base g c ns its fs (upd susp r (some n)) where
  chain := h.chain
  full := h.full
  flat := h.flat
  gens := h.gens
  nodup := h.nodup
  susp q m hq := by
    simp only [upd] at hq
    split at hq
    · rename_i e; cases hq; subst e; exact ⟨hg, h2⟩
    · exact h.susp q m hq
  fresh := h.fresh
  pos := h.pos

/-- A change of a generator which is not active. -/
theorem Base.put_gen (h : Base g c ns its fs susp) (r n : Nat) (l : Option Nat) (hs : susp r = some n) :
    Base g (c.put r ⟨true, n + 5, l, [.frame n]⟩) ns its fs susp := by
  have h1 := h.susp r n hs
  obtain ⟨q, hq⟩ := h1.1
  have h3 := ((h.forget r).put_other r ⟨true, n + 5, l, [.frame n]⟩ (h.lt _ hq) (h.chain.not_gen h1.1) h1.2 (upd_same _ _ _)).add r n ⟨l, by simp [Ctx.put]⟩ h1.2
  rw [upd_upd, ← hs, upd_self] at h3
  exact h3

/-- A new stack object. -/
theorem Base.grow (h : Base g c ns its fs susp) (hcap : 1 ≤ g.cap) (hne : ∀ l ∈ its.head?, l ≠ []) :
    Base g { (c.put c.next ⟨false, g.cap, ns.head?, []⟩) with next := c.next + 1 } (c.next :: ns) ([] :: its) fs susp := by
  have hlt : ∀ i o, c.heap i = some o → i ≠ c.next := fun i o hi => Nat.ne_of_lt (h.lt o hi)
  have hnm : c.next ∉ ns := fun hm => by obtain ⟨l, q, e⟩ := h.chain.mem _ hm; exact hlt _ _ e rfl
  refine ⟨.cons _ _ _ _ (by simp [Ctx.put]) hnm (by simpa [sizes] using hcap) (h.chain.other fun i hi => ?_), ?_, h.flat, ?_, h.nodup, ?_, ?_, h.pos⟩
  · exact if_neg fun e : i = c.next => hnm (e ▸ hi)
  · intro l hl
    simp only [List.tail_cons] at hl
    cases its with
    | nil => simp at hl
    | cons a its =>
      rcases List.mem_cons.1 hl with rfl | hl
      · exact hne _ (by simp)
      · exact h.full l hl
  · intro r n hr
    obtain ⟨l, hl⟩ := h.gens r n hr
    exact ⟨l, by simp [Ctx.put, hlt _ _ hl, hl]⟩
  · intro r n hr
    obtain ⟨⟨l, hl⟩, h2⟩ := h.susp r n hr
    exact ⟨⟨l, by simp [Ctx.put, hlt _ _ hl, hl]⟩, h2⟩
  · intro j hj
    have hj' : c.next + 1 ≤ j := hj
    have : j ≠ c.next := by omega
    simp [Ctx.put, this, h.fresh j (by omega)]

theorem Chain.head {g : Cfg} {h : Nat → Option Obj} {i : Nat} {ns : List Nat} {l : List Item} {its : List (List Item)} (hc : Chain g h (i :: ns) (l :: its)) :
    h i = some ⟨false, g.cap, ns.head?, l⟩ ∧ i ∉ ns ∧ 1 + sizes l ≤ g.cap ∧ Chain g h ns its := by
  cases hc with
  | cons _ _ _ _ hi hn hs hc => exact ⟨hi, hn, hs, hc⟩

/-- The items on the topmost stack object change. -/
theorem Chain.set_head {g : Cfg} {c : Ctx} {i : Nat} {ns : List Nat} {l : List Item} {its : List (List Item)} (hc : Chain g c.heap (i :: ns) (l :: its))
    (l' : List Item) (hs : 1 + sizes l' ≤ g.cap) : Chain g (c.put i ⟨false, g.cap, ns.head?, l'⟩).heap (i :: ns) (l' :: its) := by
  obtain ⟨h1, h2, h3, h4⟩ := hc.head
  refine .cons _ _ _ _ (by simp [Ctx.put]) h2 hs (h4.other fun j hj => ?_)
  exact if_neg fun e : j = i => h2 (e ▸ hj)

theorem gen_put_normal {c : Ctx} {i r n : Nat} {o o' : Obj} (hi : c.heap i = some o) (hr : o.re = false) (h : IsGen c.heap r n) : IsGen (c.put i o').heap r n := by
  obtain ⟨l, hl⟩ := h
  have : r ≠ i := fun e => by rw [e, hi] at hl; cases hl; cases hr
  exact ⟨l, by simp [Ctx.put, this, hl]⟩

/-- A frame or a generator is put on the topmost stack object. -/
theorem Base.push {i : Nat} {l : List Item} (h : Base g c (i :: ns) (l :: its) fs susp) (f : Fr) (hs : 1 + sizes l + f.item.size ≤ g.cap)
    (hf : match f with
      | .plain j b n => 0 < n ∧ j = i ∧ b = sizes l + 4
      | .gen r n => susp r = some n) :
    Base g (c.put i ⟨false, g.cap, ns.head?, f.item :: l⟩) (i :: ns) ((f.item :: l) :: its) (f :: fs) (match f.id? with | some r => upd susp r none | none => susp) := by
  have hh := h.chain.head
  have hgen : ∀ r n, IsGen c.heap r n → IsGen (c.put i ⟨false, g.cap, ns.head?, f.item :: l⟩).heap r n := fun r n hg => gen_put_normal hh.1 rfl hg
  have hfresh : ∀ j, c.next ≤ j → (c.put i ⟨false, g.cap, ns.head?, f.item :: l⟩).heap j = none := fun j hj => by
    have := h.lt _ hh.1
    have : j ≠ i := by omega
    simp [Ctx.put, this, h.fresh j hj]
  have hch := h.chain.set_head (f.item :: l) (by simp only [sizes]; omega)
  have hfl : allSpots (i :: ns) ((f.item :: l) :: its) = (f :: fs).map Fr.spot := by
    have := h.flat
    cases f with
    | plain j b n =>
      obtain ⟨-, rfl, rfl⟩ := hf
      simp only [allSpots] at this
      simp [allSpots, spots, Fr.item, Fr.spot, Fr.place, this]
    | gen r n =>
      simp only [allSpots] at this
      simp [allSpots, spots, Fr.item, Fr.spot, Fr.place, this]
  cases f with
  | plain j b n =>
    refine ⟨hch, h.full, hfl, fun r m hr => ?_, h.nodup, fun r m hr => ?_, hfresh, fun i' b' m hm => ?_⟩
    · exact hgen r m (h.gens r m (by simpa using hr))
    · have := h.susp r m hr
      exact ⟨hgen r m this.1, by simpa [Fr.id?] using this.2⟩
    · rcases List.mem_cons.1 hm with e | hm
      · cases e; exact hf.1
      · exact h.pos i' b' m hm
  | gen r n =>
    have hr := h.susp r n hf
    refine ⟨hch, h.full, hfl, fun q m hq => ?_, ?_, fun q m hq => ?_, hfresh, fun i' b' m hm => h.pos i' b' m (by simpa using hm)⟩
    · rcases List.mem_cons.1 hq with e | hq
      · cases e; exact hgen r n hr.1
      · exact hgen q m (h.gens q m hq)
    · have : (Fr.gen r n :: fs).filterMap Fr.id? = r :: fs.filterMap Fr.id? := rfl
      rw [this]
      exact List.nodup_cons.2 ⟨hr.2, h.nodup⟩
    · simp only [Fr.id?, upd] at hq
      split at hq
      · cases hq
      · rename_i hne
        have := h.susp q m hq
        refine ⟨hgen q m this.1, ?_⟩
        have e : (Fr.gen r n :: fs).filterMap Fr.id? = r :: fs.filterMap Fr.id? := rfl
        rw [e, List.mem_cons]
        exact fun a => a.elim hne this.2

/-- The topmost item is taken from the topmost stack object. -/
theorem Base.drop {i : Nat} {x : Item} {l : List Item} (h : Base g c (i :: ns) ((x :: l) :: its) fs susp) :
    ∃ f fs', fs = f :: fs' ∧ f.item = x ∧ (∀ n, x = .frame n → f.place = (i, sizes l + 4)) ∧
      Base g (c.put i ⟨false, g.cap, ns.head?, l⟩) (i :: ns) (l :: its) fs' (match f with | .gen r n => upd susp r (some n) | .plain _ _ _ => susp) := by
  have hfl := h.flat
  cases fs with
  | nil => cases x <;> simp [allSpots, spots] at hfl
  | cons f fs' =>
    have hfl : f.item = x ∧ (∀ n, x = .frame n → f.place = (i, sizes l + 4)) ∧ allSpots (i :: ns) (l :: its) = fs'.map Fr.spot := by
      cases x with
      | frame n =>
        simp only [allSpots, spots, List.map_cons, List.cons_append, List.cons.injEq, Fr.spot, Prod.mk.injEq] at hfl
        exact ⟨hfl.1.1.symm, fun _ _ => hfl.1.2.symm, hfl.2⟩
      | ptr r =>
        simp only [allSpots, spots, List.map_cons, List.cons_append, List.cons.injEq, Fr.spot, Prod.mk.injEq] at hfl
        exact ⟨hfl.1.1.symm, fun _ h => (by cases h), hfl.2⟩
    refine ⟨f, fs', rfl, hfl.1, hfl.2.1, ?_⟩
    have hh := h.chain.head
    have hgen : ∀ r n, IsGen c.heap r n → IsGen (c.put i ⟨false, g.cap, ns.head?, l⟩).heap r n := fun r n hg => gen_put_normal hh.1 rfl hg
    have hfresh : ∀ j, c.next ≤ j → (c.put i ⟨false, g.cap, ns.head?, l⟩).heap j = none := fun j hj => by
      have := h.lt _ hh.1
      have : j ≠ i := by omega
      simp [Ctx.put, this, h.fresh j hj]
    have hch := h.chain.set_head l (by have := hh.2.2.1; simp only [sizes] at this; omega)
    have hsub : ∀ r, r ∈ fs'.filterMap Fr.id? → r ∈ (f :: fs').filterMap Fr.id? := fun r hr => by
      obtain ⟨a, ha, e⟩ := List.mem_filterMap.1 hr
      exact List.mem_filterMap.2 ⟨a, by simp [ha], e⟩
    have base : Base g (c.put i ⟨false, g.cap, ns.head?, l⟩) (i :: ns) (l :: its) fs' susp := by
      refine ⟨hch, h.full, hfl.2.2, fun r m hr => hgen r m (h.gens r m (by simp [hr])), ?_, fun r m hr => ?_, hfresh, fun i' b' m hm => h.pos i' b' m (by simp [hm])⟩
      · have := h.nodup
        cases f with
        | plain j b n => exact this
        | gen r n => exact (List.nodup_cons.1 (show (r :: fs'.filterMap Fr.id?).Nodup from this)).2
      · have := h.susp r m hr
        exact ⟨hgen r m this.1, fun a => this.2 (hsub r a)⟩
    cases f with
    | plain j b n => exact base
    | gen r n =>
      refine base.add r n (hgen r n (h.gens r n (by simp))) ?_
      exact (List.nodup_cons.1 (show (r :: fs'.filterMap Fr.id?).Nodup from h.nodup)).1

/-- The topmost stack object, which is empty, is left. -/
theorem Base.lower {i : Nat} (h : Base g c (i :: ns) ([] :: its) fs susp) : Base g c ns its fs susp where
  chain := h.chain.head.2.2.2
  full l hl := h.full l (List.mem_of_mem_tail hl)
  flat := h.flat
  gens := h.gens
  nodup := h.nodup
  susp := h.susp
  fresh := h.fresh
  pos := h.pos

end Verif.Stack
