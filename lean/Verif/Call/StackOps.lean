import Verif.Call.StackLemmas

/-
Each operation on the stack keeps the layout.
-/
namespace Verif.Stack

variable {g : Cfg} {c : Ctx} {ns : List Nat} {its : List (List Item)} {fs : List Fr} {susp : Nat → Option Nat}

/-- The current stack object is not reentrant, and the topmost frame is on it. -/
structure OnNormal (g : Cfg) (c : Ctx) (i : Nat) (ns : List Nat) (l : List Item) (its : List (List Item)) (fs : List Fr) (susp : Nat → Option Nat) : Prop where
  base  : Base g c (i :: ns) (l :: its) fs susp
  cur   : c.cur = some i
  depth : c.depth = total fs + ns.length

/-- The current stack object is that of a generator. -/
structure OnGen (g : Cfg) (c : Ctx) (r n i : Nat) (ns : List Nat) (l : List Item) (its : List (List Item)) (fs : List Fr) (susp : Nat → Option Nat) : Prop where
  base  : Base g c (i :: ns) (l :: its) fs susp
  cur   : c.cur = some r
  gen   : c.heap r = some ⟨true, n + 5, some i, [.frame n]⟩
  susp  : susp r = some n
  depth : c.depth = total fs + (n + 5) + ns.length

/-- Frames on the stack, the topmost first, and generators which wait. -/
structure Spec where
  frames : List Fr
  susp   : Nat → Option Nat

/-- The stack of a thread consists of these frames. -/
inductive Rep (g : Cfg) (c : Ctx) : Spec → Prop
  | empty (susp : Nat → Option Nat) (hb : Base g c [] [] [] susp) (hc : c.cur = none) (hr : c.regs = 0) (hd : c.depth = 0) : Rep g c ⟨[], susp⟩
  | normal (i : Nat) (ns : List Nat) (n : Nat) (l : List Item) (its : List (List Item)) (fs : List Fr) (susp : Nat → Option Nat)
    (h : OnNormal g c i ns (.frame n :: l) its (.plain i (sizes l + 4) n :: fs) susp) (hr : c.regs = sizes l + 4) :
    Rep g c ⟨.plain i (sizes l + 4) n :: fs, susp⟩
  | gen (r n i : Nat) (ns : List Nat) (l : List Item) (its : List (List Item)) (fs : List Fr) (susp : Nat → Option Nat) (hs : susp r = none)
    (h : OnGen g c r n i ns l its fs (upd susp r (some n))) (hr : c.regs = 4) : Rep g c ⟨.gen r n :: fs, susp⟩

/-- An allocation fails. -/
def NoMem (g : Cfg) (c : Ctx) : Prop := ∃ k, c.next ≤ k ∧ g.alloc k = false

/-- `push_new_stack` on a stack object which is not reentrant. -/
theorem pushNew_normal {i : Nat} {l : List Item} (hcap : 1 ≤ g.cap) (h : Base g c (i :: ns) (l :: its) fs susp) (hc : c.cur = some i) (hl : l ≠ []) :
    (g.alloc c.next = false ∧ pushNew g c = .fail { c with next := c.next + 1 }) ∨
    ∃ c', pushNew g c = .ok c' ∧ Base g c' (c.next :: i :: ns) ([] :: l :: its) fs susp ∧ c'.cur = some c.next ∧ c'.depth = c.depth + 1 ∧ c'.regs = c.regs ∧
      c'.next = c.next + 1 ∧ (∀ q o, c.heap q = some o → c'.heap q = some o) := by
  cases ha : g.alloc c.next with
  | false => exact .inl ⟨rfl, by simp [pushNew, ha]⟩
  | true =>
    right
    have hh := h.chain.head.1
    have e : pushNew g c = .ok { (c.put c.next ⟨false, g.cap, some i, []⟩) with next := c.next + 1, cur := some c.next, depth := c.depth + 1 } := by
      simp only [pushNew, ha, if_true, hc, hh, Bool.false_eq_true, if_false]
    refine ⟨_, e, (h.grow hcap (by simpa using hl)).ctx _ rfl (Nat.le_refl _), rfl, rfl, rfl, rfl, ?_⟩
    intro q o hq
    have := h.lt _ hq
    have : q ≠ c.next := by omega
    simp [Ctx.put, this, hq]

/-- `push_new_stack` on nothing. -/
theorem pushNew_empty (hcap : 1 ≤ g.cap) (h : Base g c [] [] fs susp) (hc : c.cur = none) :
    (g.alloc c.next = false ∧ pushNew g c = .fail { c with next := c.next + 1 }) ∨
    ∃ c', pushNew g c = .ok c' ∧ Base g c' [c.next] [[]] fs susp ∧ c'.cur = some c.next ∧ c'.depth = c.depth ∧ c'.regs = c.regs ∧ c'.next = c.next + 1 := by
  cases ha : g.alloc c.next with
  | false => exact .inl ⟨rfl, by simp [pushNew, ha]⟩
  | true =>
    right
    have e : pushNew g c = .ok { (c.put c.next ⟨false, g.cap, none, []⟩) with next := c.next + 1, cur := some c.next } := by
      simp only [pushNew, ha, if_true, hc]
    exact ⟨_, e, (h.grow hcap (by simp)).ctx _ rfl (Nat.le_refl _), rfl, rfl, rfl, rfl⟩

/-- `r`, which is a generator, is put on the current stack object. -/
theorem putPtr_spec {i r n : Nat} {l : List Item} (h : Base g c (i :: ns) (l :: its) fs susp) (hc : c.cur = some i) (hr : susp r = some n)
    (hs : 1 + sizes l < g.cap) : ∃ c', putPtr r c = .ok c' ∧ Base g c' (i :: ns) ((.ptr r :: l) :: its) (.gen r n :: fs) (upd susp r none) ∧ c'.cur = some i ∧
      c'.depth = c.depth ∧ c'.regs = c.regs ∧ c'.next = c.next ∧ (∀ q, q ≠ i → c'.heap q = c.heap q) := by
  have hh := h.chain.head.1
  have e : putPtr r c = .ok (c.put i ⟨false, g.cap, ns.head?, .ptr r :: l⟩) := by
    simp only [putPtr, hc, hh, Obj.size, hs, if_true]
  exact ⟨_, e, h.push (.gen r n) (by simp only [Fr.item, Item.size]; omega) hr, hc, rfl, rfl, rfl, fun q hq => if_neg hq⟩

/-- `unchain_reentrant_frame` on a generator: it is put on a stack object which is not reentrant, which may be a new one. -/
theorem unchain_gen {r n i : Nat} {l : List Item} (hcap : 3 ≤ g.cap) (h : OnGen g c r n i ns l its fs susp) :
    (g.alloc c.next = false ∧ 1 + sizes l = g.cap ∧ unchain g c = .fail { c with next := c.next + 1 }) ∨
    ∃ c' i' ns' l' its', unchain g c = .ok c' ∧ OnNormal g c' i' ns' (.ptr r :: l') its' (.gen r n :: fs) (upd susp r none) ∧ c.next ≤ c'.next ∧
      (1 + sizes l < g.cap ∧ l' = l ∧ c'.depth = c.depth ∧ c'.next = c.next ∨ 1 + sizes l = g.cap ∧ l' = [] ∧ c'.depth = c.depth + 1) ∧
      (∀ q o, q ≠ r → o.re = true → c.heap q = some o → c'.heap q = some o) := by
  have hh := h.base.chain.head
  by_cases hf : 1 + sizes l = g.cap
  · have hl : l ≠ [] := fun e => by rw [e] at hf; simp [sizes] at hf; omega
    rcases pushNew_normal (c := { c with cur := some i }) (by omega) (h.base.ctx _ rfl (Nat.le_refl _)) rfl hl with ⟨ha, hp⟩ | ⟨c1, hp, b1, cu1, d1, r1, n1, k1⟩
    · left
      refine ⟨ha, hf, ?_⟩
      simp only [unchain, h.cur, h.gen, hh.1, Obj.size, hf, if_true, hp]
    · right
      have b2 := b1.put_gen r n (some c.next) h.susp
      obtain ⟨c', e, b3, cu3, d3, r3, n3, k3⟩ := putPtr_spec (r := r) (n := n) b2 cu1 h.susp (by simp [sizes]; omega)
      refine ⟨c', _, _, _, _, ?_, ⟨b3, cu3, ?_⟩, ?_, .inr ⟨hf, rfl, ?_⟩, ?_⟩
      · simp only [unchain, h.cur, h.gen, hh.1, Obj.size, hf, if_true, hp, cu1]
        exact e
      · rw [d3]
        show c1.depth = _
        rw [d1]
        simp only [h.depth, total, Fr.size, List.length_cons]
        omega
      · rw [n3]
        show c.next ≤ c1.next
        rw [n1]
        exact Nat.le_succ _
      · rw [d3]; show c1.depth = _; rw [d1]
      · intro q o hq ho hqo
        have hne : q ≠ c.next := by have := h.base.lt _ hqo; omega
        rw [k3 q hne]
        simp only [Ctx.put, hq, if_false]
        exact k1 q o hqo
  · right
    have hlt : 1 + sizes l < g.cap := by have := hh.2.2.1; omega
    obtain ⟨c', e, b3, cu3, d3, r3, n3, k3⟩ := putPtr_spec (c := { c with cur := some i }) (r := r) (n := n) (h.base.ctx _ rfl (Nat.le_refl _)) rfl h.susp hlt
    refine ⟨c', i, ns, l, its, ?_, ⟨b3, cu3, ?_⟩, by rw [n3]; exact Nat.le_refl _, .inl ⟨hlt, rfl, d3, n3⟩, ?_⟩
    · simp only [unchain, h.cur, h.gen, hh.1, Obj.size, hf, if_true, if_false]
      exact e
    · rw [d3]
      show c.depth = _
      simp only [h.depth, total, Fr.size]
      omega
    · intro q o hq ho hqo
      have hne : q ≠ i := fun e => by rw [e, hh.1] at hqo; cases hqo; cases ho
      rw [k3 q hne]
      exact hqo

/-- `unchain_reentrant_frame` does nothing otherwise. -/
theorem unchain_normal {i : Nat} {l : List Item} (h : Base g c (i :: ns) (l :: its) fs susp) (hc : c.cur = some i) : unchain g c = .ok c := by
  simp [unchain, hc, h.chain.head.1]

/-- A frame is put on the current stack object. -/
theorem place_spec {i n : Nat} {l : List Item} (h : OnNormal g c i ns l its fs susp) (hn : 0 < n) (hs : 1 + sizes l + (n + 4) ≤ g.cap) :
    ∃ c', place n c = .ok c' ∧ Rep g c' ⟨.plain i (sizes l + 4) n :: fs, susp⟩ ∧ c'.depth = c.depth + (n + 4) := by
  have hh := h.base.chain.head.1
  have e : place n c = .ok { (c.put i ⟨false, g.cap, ns.head?, .frame n :: l⟩) with regs := 1 + sizes l + 3, depth := c.depth + (n + 4) } := by
    simp only [place, h.cur, hh, Obj.size, hs, if_true]
  refine ⟨_, e, .normal i ns n l its fs susp ⟨?_, h.cur, ?_⟩ ?_, rfl⟩
  · exact (h.base.push (.plain i (sizes l + 4) n) (by simpa [Fr.item, Item.size] using hs) ⟨hn, rfl, rfl⟩).ctx _ rfl (Nat.le_refl _)
  · simp only [h.depth, total, Fr.size]; omega
  · simp only []; omega

/-- A new stack object is made unless there is room. -/
theorem makeRoom_spec {i n : Nat} {l : List Item} (hcap : n + 6 ≤ g.cap) (h : OnNormal g c i ns l its fs susp) (hl : l ≠ []) (hn : 0 < n) :
    (g.cap < 1 + sizes l + (n + 4) ∧ g.alloc c.next = false ∧ makeRoom g n c = .fail { c with next := c.next + 1 }) ∨
    ∃ c' j b, (makeRoom g n c).bind (place n) = .ok c' ∧ Rep g c' ⟨.plain j b n :: fs, susp⟩ ∧
      (1 + sizes l + (n + 4) ≤ g.cap ∧ c'.depth = c.depth + (n + 4) ∨ g.cap < 1 + sizes l + (n + 4) ∧ c'.depth = c.depth + (n + 4) + 1) := by
  have hh := h.base.chain.head.1
  by_cases hr : g.cap < 1 + sizes l + (n + 4)
  · rcases pushNew_normal (by omega) h.base h.cur hl with ⟨ha, hp⟩ | ⟨c1, hp, b1, cu1, d1, r1, n1, k1⟩
    · left
      exact ⟨hr, ha, by simp only [makeRoom, h.cur, hh, Obj.size, hr, if_true, hp]⟩
    · right
      have o1 : OnNormal g c1 c.next (i :: ns) [] (l :: its) fs susp := ⟨b1, cu1, by rw [d1, h.depth]; simp only [List.length_cons]; omega⟩
      obtain ⟨c2, e2, r2, d2⟩ := place_spec o1 hn (by simp [sizes]; omega)
      refine ⟨c2, _, _, ?_, r2, .inr ⟨hr, by omega⟩⟩
      simp only [makeRoom, h.cur, hh, Obj.size, hr, if_true, hp, Res.bind, e2]
  · right
    obtain ⟨c2, e2, r2, d2⟩ := place_spec h hn (by omega)
    refine ⟨c2, _, _, ?_, r2, .inl ⟨by omega, d2⟩⟩
    simp only [makeRoom, h.cur, hh, Obj.size, hr, if_false, Res.bind, e2]

/-- The stack object of a generator is made the current one. -/
theorem chain_normal {i r n : Nat} {l : List Item} (h : OnNormal g c i ns l its fs susp) (hr : susp r = some n) :
    ∃ c', chain g r c = .ok c' ∧ OnGen g c' r n i ns l its fs susp ∧ c'.depth = c.depth + (n + 5) := by
  obtain ⟨⟨q, hq⟩, h2⟩ := h.base.susp r n hr
  have e : chain g r c = .ok { (c.put r ⟨true, n + 5, some i, [.frame n]⟩) with cur := some r, depth := c.depth + (n + 5) } := by
    simp only [chain, unchain_normal h.base h.cur, Res.bind, hq, h.cur, Obj.size, sizes, Item.size]
    congr 2
    omega
  refine ⟨_, e, ⟨(h.base.put_gen r n (some i) hr).ctx _ rfl (Nat.le_refl _), rfl, by simp [Ctx.put], hr, ?_⟩, rfl⟩
  simp only [h.depth]
  omega

/-- A new stack object for a generator. -/
theorem chain_new {i r n : Nat} {l : List Item} (h : OnNormal g c i ns l its fs susp) (hr : c.heap r = some ⟨true, n + 5, none, []⟩) :
    ∃ c', (chain g r c).bind (place n) = .ok c' ∧ Rep g c' ⟨.gen r n :: fs, susp⟩ ∧ c'.depth = c.depth + (n + 5) := by
  have hs : susp r = none := by
    cases hs : susp r with
    | none => rfl
    | some m =>
      obtain ⟨q, hq⟩ := (h.base.susp r m hs).1
      rw [hr] at hq; cases hq
  have hns : r ∉ ns ∧ r ≠ i := by
    refine ⟨fun a => ?_, fun a => ?_⟩
    · obtain ⟨l, q, e⟩ := h.base.chain.mem r (by simp [a])
      rw [hr] at e; cases e
    · have := h.base.chain.head.1
      rw [← a, hr] at this; cases this
  have hid : r ∉ fs.filterMap Fr.id? := fun a => by
    obtain ⟨f, hf, e⟩ := List.mem_filterMap.1 a
    cases f with
    | plain => cases e
    | gen r' n' =>
      cases e
      obtain ⟨q, hq⟩ := h.base.gens r n' hf
      rw [hr] at hq; cases hq
  have e : (chain g r c).bind (place n) = .ok { (c.put r ⟨true, n + 5, some i, [.frame n]⟩) with cur := some r, depth := c.depth + (n + 5), regs := 4 } := by
    simp only [chain, unchain_normal h.base h.cur, Res.bind, hr, h.cur, Obj.size, sizes, place, Ctx.put, if_true, Nat.add_zero]
    rw [if_pos (by omega)]
    congr 2
    · funext j; split <;> rfl
    · omega
  have hb := ((h.base.put_other r ⟨true, n + 5, some i, [.frame n]⟩ (h.base.lt _ hr) (by simp [hns]) hid hs).add r n ⟨some i, by simp [Ctx.put]⟩ hid)
  refine ⟨_, e, .gen r n i ns l its fs susp hs ⟨hb.ctx _ rfl (Nat.le_refl _), rfl, by simp [Ctx.put], upd_same _ _ _, ?_⟩ rfl, rfl⟩
  simp only [h.depth]
  omega

/-- The frame which is now the topmost becomes the current one. -/
theorem settle_spec {i : Nat} {x : Item} {l : List Item} (h : Base g c (i :: ns) ((x :: l) :: its) fs susp) (hd : c.depth = total fs + ns.length) :
    ∃ c', settle i c = .ok c' ∧ Rep g c' ⟨fs, susp⟩ ∧ c'.depth = c.depth := by
  have hh := h.chain.head.1
  obtain ⟨f, fs', e1, e2, e3, hb⟩ := h.drop
  subst e1
  cases f with
  | plain j b n =>
    cases e2
    cases e3 n rfl
    have hn := h.pos _ _ n (List.mem_cons_self ..)
    have e : settle i c = .ok { c with cur := some i, regs := sizes l + 4 } := by
      simp only [settle, hh, Fr.item, hn, if_true, Obj.size, sizes, Item.size]
      congr 2
      omega
    exact ⟨_, e, .normal i ns n l its fs' susp ⟨h.ctx _ rfl (Nat.le_refl _), rfl, hd⟩ rfl, rfl⟩
  | gen r n =>
    cases e2
    obtain ⟨q, hq⟩ := h.gens r n (by simp)
    have hs : susp r = none := by
      cases hs : susp r with
      | none => rfl
      | some m =>
        exact ((h.susp r m hs).2 (List.mem_filterMap.2 ⟨Fr.gen r n, List.mem_cons_self .., rfl⟩)).elim
    have e : settle i c = .ok { ((c.put i ⟨false, g.cap, ns.head?, l⟩).put r ⟨true, n + 5, some i, [.frame n]⟩) with cur := some r, regs := 4 } := by
      simp only [settle, hh, Fr.item, hq, Obj.size, sizes, Item.size]
      rw [if_pos ⟨trivial, trivial, by omega⟩]
    refine ⟨_, e, .gen r n i ns l its fs' susp hs ⟨?_, rfl, by simp [Ctx.put], upd_same _ _ _, ?_⟩ rfl, rfl⟩
    · exact (hb.put_gen r n (some i) (upd_same _ _ _)).ctx _ rfl (Nat.le_refl _)
    · show c.depth = _
      rw [hd]
      simp only [total, Fr.size]
      omega

/-- Going down over empty stack objects. -/
theorem descend_spec {i k : Nat} {l : List Item} (h : Base g c (i :: ns) (l :: its) fs susp) (hd : c.depth = total fs + ns.length) :
    ∃ c', descend (k + 2) i c = .ok c' ∧ Rep g c' ⟨fs, susp⟩ ∧ c'.depth ≤ c.depth := by
  have hh := h.chain.head
  cases l with
  | cons x l =>
    obtain ⟨c', e, hr, d⟩ := settle_spec h hd
    have hsz : (⟨false, g.cap, ns.head?, x :: l⟩ : Obj).size ≠ 1 := by
      simp only [Obj.size, sizes]
      cases x <;> simp [Item.size]
    exact ⟨c', by simp only [descend, hh.1, hsz, if_false, e], hr, by omega⟩
  | nil =>
    cases ns with
    | nil =>
      have hits : its = [] := by
        have := hh.2.2.2.length
        cases its with
        | nil => rfl
        | cons => cases this
      subst hits
      have hfs : fs = [] := by have := h.flat; cases fs with | nil => rfl | cons => simp [allSpots, spots] at this
      subst hfs
      have h0 : c.depth = 0 := by simpa [total] using hd
      have e : descend (k + 2) i c = .ok { c with cur := none, regs := 0 } := by
        simp [descend, hh.1, Obj.size, sizes, h0]
      exact ⟨_, e, .empty susp (h.lower.ctx _ rfl (Nat.le_refl _)) rfl rfl h0, Nat.le_refl _⟩
    | cons j ns =>
      cases its with
      | nil => have := hh.2.2.2.length; cases this
      | cons l' its =>
        have hne : l' ≠ [] := h.full l' (by simp)
        cases l' with
        | nil => exact absurd rfl hne
        | cons x l' =>
          have hd1 : ¬ c.depth = 0 := by rw [hd]; simp only [List.length_cons]; omega
          obtain ⟨c', e, hr, d⟩ := settle_spec (c := { c with depth := c.depth - 1 }) (h.lower.ctx _ rfl (Nat.le_refl _)) (by
            show c.depth - 1 = _
            rw [hd]; simp only [List.length_cons]; omega)
          have hj := h.lower.chain.head.1
          have hsz : (⟨false, g.cap, ns.head?, x :: l'⟩ : Obj).size ≠ 1 := by
            simp only [Obj.size, sizes]
            cases x <;> simp [Item.size]
          refine ⟨c', ?_, hr, by rw [d]; show c.depth - 1 ≤ _; omega⟩
          have h1 : descend (k + 2) i c = descend (k + 1) j { c with depth := c.depth - 1 } := by
            show (match c.heap i with | none => Res.bad | some o => _) = _
            rw [hh.1]
            exact if_neg hd1
          rw [h1]
          show (match c.heap j with | none => Res.bad | some o => _) = _
          rw [hj]
          exact (if_neg hsz).trans e

theorem Base.next_pos {i : Nat} {l : List Item} (h : Base g c (i :: ns) (l :: its) fs susp) : 1 ≤ c.next := by
  have := h.lt _ h.chain.head.1
  omega

/-- `kos_stack_pop`, a frame which is not in the stack object of a generator. -/
theorem pop_plain {i n : Nat} {l : List Item} (h : OnNormal g c i ns (.frame n :: l) its (.plain i (sizes l + 4) n :: fs) susp)
    (hr : c.regs = sizes l + 4) : ∃ c', pop c = .ok c' ∧ Rep g c' ⟨fs, susp⟩ ∧ c'.depth ≤ c.depth - (n + 4) := by
  have hh := h.base.chain.head.1
  obtain ⟨f, fs', e1, e2, e3, hb⟩ := h.base.drop
  cases e1
  obtain ⟨k, hk⟩ : ∃ k, c.next + 1 = k + 2 := ⟨c.next - 1, by have := h.base.next_pos; omega⟩
  obtain ⟨c', e, hrep, d⟩ := descend_spec (k := k) (c := { (c.put i ⟨false, g.cap, ns.head?, l⟩) with depth := c.depth - (n + 4) }) (hb.ctx _ rfl (Nat.le_refl _)) (by
    show c.depth - (n + 4) = _
    rw [h.depth]; simp only [total, Fr.size]; omega)
  refine ⟨c', ?_, hrep, d⟩
  have hnum : 1 + (n + 4 + sizes l) - c.regs - 1 = n := by omega
  have hcond : c.regs < 1 + (n + 4 + sizes l) ∧ True ∧ n + 4 ≤ c.depth := ⟨by omega, trivial, by rw [h.depth]; simp only [total, Fr.size]; omega⟩
  simp only [pop, h.cur, hh, Bool.false_eq_true, if_false, Obj.size, sizes, Item.size, hnum, hk]
  exact (if_pos hcond).trans e

/-- `kos_stack_pop`, a frame in a reentrant stack object. -/
theorem pop_gen {r m k i : Nat} {l : List Item} (h : Base g c (i :: ns) (l :: its) fs susp) (hc : c.cur = some r)
    (hr : c.heap r = some ⟨true, k, some i, [.frame m]⟩) (hd : c.depth = total fs + (m + 5) + ns.length) :
    ∃ c', pop c = .ok c' ∧ Rep g c' ⟨fs, susp⟩ ∧ c'.depth ≤ c.depth - (m + 5) := by
  obtain ⟨k', hk⟩ : ∃ k, c.next + 1 = k + 2 := ⟨c.next - 1, by have := h.next_pos; omega⟩
  obtain ⟨c', e, hrep, d⟩ := descend_spec (k := k') (c := { c with depth := c.depth - (m + 5) }) (h.ctx _ rfl (Nat.le_refl _)) (by
    show c.depth - (m + 5) = _
    omega)
  refine ⟨c', ?_, hrep, d⟩
  have hsz : (⟨true, k, some i, [.frame m]⟩ : Obj).size = m + 5 := by simp only [Obj.size, sizes, Item.size]; omega
  have hle : m + 5 ≤ c.depth := by omega
  simp only [pop, hc, hr, if_true, hsz, true_and, hle, hk]
  rw [hc] at e
  exact e

/-- The limit was reached, or there was no memory. -/
def Excuse (g : Cfg) (c : Ctx) (n : Nat) : Prop := g.max < c.depth + (n + 4) ∨ ∃ k, g.alloc k = false

/-- Result of a push of a frame with `n` registers. -/
def Pushed (g : Cfg) (c : Ctx) (sp sp' : Spec) (n : Nat) (r : Res) : Prop :=
  (∃ c', r = .ok c' ∧ Rep g c' sp' ∧ c'.depth ≤ g.max + 2 ∧ c.depth + (n + 4) ≤ c'.depth) ∨
  (∃ c', r = .fail c' ∧ Rep g c' sp ∧ c'.depth = c.depth ∧ Excuse g c n)

/-- Nothing but the number of allocations has changed. -/
theorem Rep.next {sp : Spec} (h : Rep g c sp) (k : Nat) (hk : c.next ≤ k) : Rep g { c with next := k } sp := by
  cases h with
  | empty susp hb hc hr hd => exact .empty susp (hb.ctx _ rfl hk) hc hr hd
  | normal i ns n l its fs susp h hr => exact .normal i ns n l its fs susp ⟨h.base.ctx _ rfl hk, h.cur, h.depth⟩ hr
  | gen r n i ns l its fs susp hs h hr => exact .gen r n i ns l its fs susp hs ⟨h.base.ctx _ rfl hk, h.cur, h.gen, h.susp, h.depth⟩ hr

theorem cleanup_same {sp sp' : Spec} {n : Nat} (h : Rep g c sp) (k : Nat) (hk : c.next ≤ k) (he : Excuse g c n) :
    Pushed g c sp sp' n (cleanup c (.fail { c with next := k })) :=
  .inr ⟨{ c with next := k }, by simp [cleanup], h.next k hk, rfl, he⟩

theorem cleanup_id {sp sp' : Spec} {n : Nat} (h : Rep g c sp) (he : Excuse g c n) : Pushed g c sp sp' n (cleanup c (.fail c)) :=
  .inr ⟨c, by simp [cleanup], h, rfl, he⟩

/-- An allocation fails at a bad moment: `r`, which is the current generator, has been put on a stack object which is not full, and the new
frame does not fit there. -/
def Unlucky (g : Cfg) (c : Ctx) (n : Nat) : Prop :=
  ∃ r o i b, c.cur = some r ∧ c.heap r = some o ∧ o.re = true ∧ o.link = some i ∧ c.heap i = some b ∧ b.size < b.cap ∧ b.cap < b.size + 1 + (n + 4) ∧ g.alloc c.next = false

theorem call_spec {sp : Spec} {n : Nat} (h : Rep g c sp) (hn : 0 < n) (hcap : n + 6 ≤ g.cap) :
    (∃ i b, Pushed g c sp ⟨.plain i b n :: sp.frames, sp.susp⟩ n (doOp g c (.call n))) ∨ Unlucky g c n ∧ doOp g c (.call n) = .bad := by
  simp only [doOp, pushPlain]
  by_cases hm : g.max < c.depth + (n + 4)
  · rw [if_pos hm]
    exact .inl ⟨0, 0, cleanup_id h (.inl hm)⟩
  · rw [if_neg hm]
    cases h with
    | empty susp hb hc hr hd =>
      rw [hc]
      rcases pushNew_empty (by omega) hb hc with ⟨ha, e⟩ | ⟨c1, e, b1, cu1, d1, r1, n1⟩
      · simp only [e, Res.bind]
        exact .inl ⟨0, 0, cleanup_same (.empty susp hb hc hr hd) _ (Nat.le_succ _) (.inr ⟨_, ha⟩)⟩
      · obtain ⟨c2, e2, h2, d2⟩ := place_spec (n := n) ⟨b1, cu1, by rw [d1, hd]; rfl⟩ hn (by simp [sizes]; omega)
        exact .inl ⟨_, _, .inl ⟨c2, by simp only [e, Res.bind, e2, cleanup], h2, by omega, by omega⟩⟩
    | normal i ns n0 l its fs susp h hr =>
      have hh := h.base.chain.head.1
      rw [h.cur]
      simp only [hh]
      by_cases hs : g.cap < (⟨false, g.cap, ns.head?, .frame n0 :: l⟩ : Obj).size + (n + 4)
      · rw [if_pos hs, unchain_normal h.base h.cur]
        rcases makeRoom_spec hcap h (by simp) hn with ⟨-, ha, e⟩ | ⟨c2, j, b, e2, h2, d2⟩
        · simp only [Res.bind, e]
          exact .inl ⟨0, 0, cleanup_same (.normal i ns n0 l its fs susp h hr) _ (Nat.le_succ _) (.inr ⟨_, ha⟩)⟩
        · refine .inl ⟨_, _, .inl ⟨c2, ?_, h2, by omega, by omega⟩⟩
          simp only [Res.bind] at e2 ⊢
          rw [e2]; rfl
      · rw [if_neg hs]
        obtain ⟨c2, e2, h2, d2⟩ := place_spec h hn (Nat.le_of_not_lt hs)
        exact .inl ⟨_, _, .inl ⟨c2, by simp only [e2, cleanup], h2, by omega, by omega⟩⟩
    | gen r m i ns l its fs susp hsr h hr =>
      have hh := h.base.chain.head.1
      rw [h.cur]
      simp only [h.gen]
      have hs : (⟨true, m + 5, some i, [.frame m]⟩ : Obj).cap < (⟨true, m + 5, some i, [.frame m]⟩ : Obj).size + (n + 4) := by
        simp only [Obj.size, sizes, Item.size]; omega
      rw [if_pos hs]
      rcases unchain_gen (by omega) h with ⟨ha, -, e⟩ | ⟨c1, i1, ns1, l1, its1, e1, h1, n1, hd, -⟩
      · simp only [e, Res.bind]
        exact .inl ⟨0, 0, cleanup_same (.gen r m i ns l its fs susp hsr h hr) _ (Nat.le_succ _) (.inr ⟨_, ha⟩)⟩
      · rw [upd_upd, ← hsr, upd_self] at h1
        rcases makeRoom_spec hcap h1 (by simp) hn with ⟨hb, ha, e⟩ | ⟨c2, j, b, e2, h2, d2⟩
        · simp only [sizes, Item.size] at hb
          rcases hd with ⟨hlt, rfl, hd, hnx⟩ | ⟨-, rfl, -⟩
          · refine .inr ⟨⟨r, _, i, _, h.cur, h.gen, rfl, rfl, hh, hlt, by simp only [Obj.size]; omega, hnx ▸ ha⟩, ?_⟩
            have hne : r ≠ i1 := fun e3 => by
              have hg := h1.base.gens r m (by simp)
              exact h1.base.chain.not_gen hg (by simp [e3])
            have h1h := h1.base.chain.head.1
            simp only [e1, Res.bind, e, cleanup, h1.cur, h.cur, pop, h1h]
            rw [if_pos (.inl (by simpa using fun e3 => hne e3.symm))]
          · simp only [sizes] at hb; omega
        · refine .inl ⟨_, _, .inl ⟨c2, ?_, h2, ?_, by omega⟩⟩
          · simp only [Res.bind] at e2 ⊢
            rw [e1]; simp only
            rw [e2]; rfl
          · simp only [sizes, Item.size] at d2
            rcases hd with ⟨hlt, rfl, hd, -⟩ | ⟨heq, rfl, hd⟩
            · omega
            · simp only [sizes] at d2; omega

/-- A reentrant stack object is put on top, after the current one has been dealt with. -/
theorem gen_bind {r : Nat} {f : Ctx → Res} (hcap : 3 ≤ g.cap) {m i : Nat} {l : List Item} (hne : r ≠ m) {n0 : Nat} (h : OnGen g c m n0 i ns l its fs susp)
    (o : Obj) (ho : o.re = true) (hr : c.heap r = some o) :
    (g.alloc c.next = false ∧ (chain g r c).bind f = .fail { c with next := c.next + 1 }) ∨
    ∃ c1 i1 ns1 l1 its1, OnNormal g c1 i1 ns1 l1 its1 (.gen m n0 :: fs) (upd susp m none) ∧ c1.heap r = some o ∧ c1.depth ≤ c.depth + 1 ∧ c.depth ≤ c1.depth ∧ c.next ≤ c1.next ∧
      chain g r c = chain g r c1 := by
  rcases unchain_gen hcap h with ⟨ha, -, e⟩ | ⟨c1, i1, ns1, l1, its1, e1, h1, n1, hd, hk⟩
  · exact .inl ⟨ha, by simp only [chain, e, Res.bind]⟩
  · refine .inr ⟨c1, i1, ns1, _, its1, h1, hk r o hne ho hr, by omega, by omega, n1, ?_⟩
    simp only [chain, e1, Res.bind, unchain_normal h1.base h1.cur]

theorem resume_spec {sp : Spec} {r n : Nat} (h : Rep g c sp) (hr : sp.susp r = some n) (hcap : 3 ≤ g.cap) :
    Pushed g c sp ⟨.gen r n :: sp.frames, upd sp.susp r none⟩ n (doOp g c (.resume r)) := by
  have fin : ∀ (c1 : Ctx) (i : Nat) (ns : List Nat) (l : List Item) (its : List (List Item)), OnNormal g c1 i ns l its sp.frames sp.susp →
      ∃ c', ((chain g r c1).bind fun c => Res.ok { c with regs := 4 }) = .ok c' ∧ Rep g c' ⟨.gen r n :: sp.frames, upd sp.susp r none⟩ ∧ c'.depth = c1.depth + (n + 5) := by
    intro c1 i ns l its h1
    obtain ⟨c', e, h2, d⟩ := chain_normal h1 hr
    refine ⟨{ c' with regs := 4 }, by simp only [e, Res.bind], .gen r n i ns l its sp.frames (upd sp.susp r none) (upd_same _ _ _) ?_ rfl, d⟩
    rw [upd_upd, ← hr, upd_self]
    exact ⟨h2.base.ctx _ rfl (Nat.le_refl _), h2.cur, h2.gen, hr ▸ h2.susp, h2.depth⟩
  have hg : ∃ q, c.heap r = some ⟨true, n + 5, q, [.frame n]⟩ := by
    cases h with
    | empty susp hb hc _ hd => exact (hb.susp r n hr).1
    | normal i ns n0 l its fs susp h _ => exact (h.base.susp r n hr).1
    | gen m n0 i ns l its fs susp hs h _ =>
      refine (h.base.susp r n ?_).1
      have : r ≠ m := fun e => by rw [e] at hr; exact absurd (hr.symm.trans hs) (by simp)
      simp only [upd, this, if_false]
      exact hr
  obtain ⟨q, hq⟩ := hg
  simp only [doOp, pushGen, hq]
  by_cases hm : g.max < c.depth + (n + 4)
  · rw [if_pos hm]
    exact cleanup_id h (.inl hm)
  · rw [if_neg hm]
    cases h with
    | empty susp hb hc hr0 hd =>
      simp only [ensure, hc, if_true]
      rcases pushNew_empty (by omega) hb hc with ⟨ha, e⟩ | ⟨c1, e, b1, cu1, d1, r1, n1⟩
      · simp only [e, Res.bind]
        exact cleanup_same (.empty susp hb hc hr0 hd) _ (Nat.le_succ _) (.inr ⟨_, ha⟩)
      · obtain ⟨c2, e2, h2, d2⟩ := fin c1 _ _ _ _ ⟨b1, cu1, by rw [d1, hd]; rfl⟩
        refine .inl ⟨c2, ?_, h2, by omega, by omega⟩
        simp only [e, Res.bind] at e2 ⊢
        rw [e2]; rfl
    | normal i ns n0 l its fs susp h hr0 =>
      simp only [ensure, h.cur, reduceCtorEq, if_false]
      obtain ⟨c2, e2, h2, d2⟩ := fin c _ _ _ _ h
      refine .inl ⟨c2, ?_, h2, by omega, by omega⟩
      simp only [Res.bind] at e2 ⊢
      rw [e2]; rfl
    | gen m n0 i ns l its fs susp hs h hr0 =>
      simp only [ensure, h.cur, reduceCtorEq, if_false]
      have hne : r ≠ m := fun e => by rw [e] at hr; exact absurd (hr.symm.trans hs) (by simp)
      rcases gen_bind (f := fun c => Res.ok { c with regs := 4 }) hcap hne h _ rfl hq with ⟨ha, e⟩ | ⟨c1, i1, ns1, l1, its1, h1, hq1, dl, du, dn, e⟩
      · simp only [Res.bind] at e ⊢
        rw [e]
        exact cleanup_same (.gen m n0 i ns l its fs susp hs h hr0) _ (Nat.le_succ _) (.inr ⟨_, ha⟩)
      · rw [upd_upd, ← hs, upd_self] at h1
        obtain ⟨c2, e2, h2, d2⟩ := fin c1 _ _ _ _ h1
        refine .inl ⟨c2, ?_, h2, by omega, by omega⟩
        simp only [Res.bind] at e2 ⊢
        rw [e, e2]; rfl

/-- A new reentrant stack object. -/
theorem Base.fresh_gen (h : Base g c ns its fs susp) (o : Obj) : Base g { (c.put c.next o) with next := c.next + 1 } ns its fs susp := by
  have hf : c.heap c.next = none := h.fresh _ (Nat.le_refl _)
  refine ((h.ctx { c with next := c.next + 1 } rfl (Nat.le_succ _)).put_other c.next o (Nat.lt_succ_self _) ?_ ?_ ?_).ctx _ rfl (Nat.le_refl _)
  · intro a
    obtain ⟨l, q, e⟩ := h.chain.mem _ a
    rw [hf] at e; cases e
  · intro a
    obtain ⟨f, hfm, e⟩ := List.mem_filterMap.1 a
    cases f with
    | plain => cases e
    | gen r m =>
      cases e
      obtain ⟨q, e⟩ := h.gens _ m hfm
      rw [hf] at e; cases e
  · cases hs : susp c.next with
    | none => rfl
    | some m =>
      obtain ⟨q, e⟩ := (h.susp _ m hs).1
      rw [hf] at e; cases e

theorem enter_spec {sp : Spec} {n : Nat} (h : Rep g c sp) (hcap : 3 ≤ g.cap) :
    ∃ r, Pushed g c sp ⟨.gen r n :: sp.frames, sp.susp⟩ n (doOp g c (.enter n)) := by
  have fin : ∀ (c1 : Ctx) (i : Nat) (ns : List Nat) (l : List Item) (its : List (List Item)), g.alloc c1.next = true → OnNormal g c1 i ns l its sp.frames sp.susp →
      ∃ c', (pushReentrant g n c1).bind (place n) = .ok c' ∧ Rep g c' ⟨.gen c1.next n :: sp.frames, sp.susp⟩ ∧ c'.depth = c1.depth + (n + 5) := by
    intro c1 i ns l its ha h1
    obtain ⟨c', e, h2, d⟩ := chain_new (c := { (c1.put c1.next ⟨true, n + 5, none, []⟩) with next := c1.next + 1 }) (r := c1.next) (n := n)
      ⟨h1.base.fresh_gen _, h1.cur, h1.depth⟩ (by simp [Ctx.put])
    refine ⟨c', ?_, h2, d⟩
    simp only [pushReentrant, ha, if_true]
    exact e
  simp only [doOp, pushNewGen]
  by_cases hm : g.max < c.depth + (n + 4)
  · rw [if_pos hm]
    exact ⟨0, cleanup_id h (.inl hm)⟩
  · rw [if_neg hm]
    cases h with
    | empty susp hb hc hr0 hd =>
      simp only [ensure, hc, if_true]
      rcases pushNew_empty (by omega) hb hc with ⟨ha, e⟩ | ⟨c1, e, b1, cu1, d1, r1, n1⟩
      · simp only [e, Res.bind]
        exact ⟨0, cleanup_same (.empty susp hb hc hr0 hd) _ (Nat.le_succ _) (.inr ⟨_, ha⟩)⟩
      · cases ha : g.alloc c1.next with
        | true =>
          obtain ⟨c2, e2, h2, d2⟩ := fin c1 _ _ _ _ ha ⟨b1, cu1, by rw [d1, hd]; rfl⟩
          refine ⟨c1.next, .inl ⟨c2, ?_, h2, by omega, by omega⟩⟩
          simp only [e, Res.bind] at e2 ⊢
          rw [e2]; rfl
        | false =>
          obtain ⟨c2, e2, h2, d2⟩ := descend_spec (k := c1.next) (c := { c1 with next := c1.next + 1 }) (b1.ctx _ rfl (Nat.le_succ _)) (by show c1.depth = _; rw [d1, hd]; rfl)
          refine ⟨0, .inr ⟨c2, ?_, h2, ?_, .inr ⟨_, ha⟩⟩⟩
          · have hp : pop { c1 with next := c1.next + 1 } = .ok c2 := by
              simp only [pop, cu1, b1.chain.head.1, List.head?_nil, if_true]
              rw [cu1] at e2
              exact e2
            have hp2 : pushReentrant g n c1 = .fail { c1 with next := c1.next + 1 } := by simp [pushReentrant, ha]
            simp only [e, Res.bind, hp2, cleanup, cu1, hc]
            rw [if_pos (.inl (by simp))]
            rw [cu1] at hp
            rw [hp]
          · have : c1.depth = 0 := by rw [d1, hd]
            have d3 : c2.depth ≤ c1.depth := d2
            omega
    | normal i ns n0 l its fs susp h hr0 =>
      simp only [ensure, h.cur, reduceCtorEq, if_false]
      cases ha : g.alloc c.next with
      | true =>
        obtain ⟨c2, e2, h2, d2⟩ := fin c _ _ _ _ ha h
        refine ⟨c.next, .inl ⟨c2, ?_, h2, by omega, by omega⟩⟩
        simp only [Res.bind] at e2 ⊢
        rw [e2]; rfl
      | false =>
        have hp2 : pushReentrant g n c = .fail { c with next := c.next + 1 } := by simp [pushReentrant, ha]
        simp only [Res.bind, hp2]
        exact ⟨0, cleanup_same (.normal i ns n0 l its fs susp h hr0) _ (Nat.le_succ _) (.inr ⟨_, ha⟩)⟩
    | gen m n0 i ns l its fs susp hs h hr0 =>
      simp only [ensure, h.cur, reduceCtorEq, if_false]
      cases ha : g.alloc c.next with
      | false =>
        have hp2 : pushReentrant g n c = .fail { c with next := c.next + 1 } := by simp [pushReentrant, ha]
        simp only [Res.bind, hp2]
        exact ⟨0, cleanup_same (.gen m n0 i ns l its fs susp hs h hr0) _ (Nat.le_succ _) (.inr ⟨_, ha⟩)⟩
      | true =>
        have hne : c.next ≠ m := by have := h.base.lt _ h.gen; omega
        have hp2 : pushReentrant g n c = chain g c.next { (c.put c.next ⟨true, n + 5, none, []⟩) with next := c.next + 1 } := by simp [pushReentrant, ha]
        have h0 : OnGen g { (c.put c.next ⟨true, n + 5, none, []⟩) with next := c.next + 1 } m n0 i ns l its fs (upd susp m (some n0)) :=
          ⟨h.base.fresh_gen _, h.cur, by simp [Ctx.put, hne.symm, h.gen], h.susp, h.depth⟩
        rcases gen_bind (f := place n) (r := c.next) hcap hne h0 ⟨true, n + 5, none, []⟩ rfl (by simp [Ctx.put]) with ⟨hb, e⟩ | ⟨c1, i1, ns1, l1, its1, h1, hq1, dl, du, dn, e⟩
        · simp only [Res.bind] at e ⊢
          rw [hp2, e]
          refine ⟨0, .inr ⟨{ (c.put c.next ⟨true, n + 5, none, []⟩) with next := c.next + 1 + 1 }, ?_, ?_, ?_, .inr ⟨_, hb⟩⟩⟩
          · simp only [cleanup]
            rw [if_neg (by simp [Ctx.put])]
          · exact .gen m n0 i ns l its fs susp hs ⟨h0.base.ctx _ rfl (Nat.le_succ _), h0.cur, h0.gen, h0.susp, h0.depth⟩ hr0
          · rfl
        · rw [upd_upd, ← hs, upd_self] at h1
          obtain ⟨c2, e2, h2, d2⟩ := chain_new h1 hq1
          have du' : c.depth ≤ c1.depth := du
          have dl' : c1.depth ≤ c.depth + 1 := dl
          refine ⟨c.next, .inl ⟨c2, ?_, h2, by omega, by omega⟩⟩
          simp only [Res.bind] at e2 ⊢
          rw [hp2, e, e2]; rfl

theorem suspend_spec {r n : Nat} (h : Rep g c ⟨.gen r n :: fs, susp⟩) :
    ∃ c', doOp g c .suspend = .ok c' ∧ Rep g c' ⟨fs, upd susp r (some n)⟩ ∧ c'.depth ≤ c.depth - (n + 5) := by
  cases h with
  | gen _ _ i ns l its _ _ hs h hr => exact pop_gen h.base h.cur h.gen h.depth

/-- The closure of a function is not larger than its frame. -/
def Fits (m : Nat) : Fr → Prop
  | .plain _ _ _ => True
  | .gen _ n => m ≤ n

theorem ret_spec {f : Fr} {m : Nat} (h : Rep g c ⟨f :: fs, susp⟩) (hm : Fits m f) :
    ∃ c', doOp g c (.ret m) = .ok c' ∧ Rep g c' ⟨fs, susp⟩ ∧ c'.depth ≤ c.depth - f.size := by
  cases h with
  | normal i ns n l its _ _ h hr =>
    obtain ⟨c', e, h2, d⟩ := pop_plain h hr
    refine ⟨c', ?_, h2, d⟩
    simp only [doOp, shrink, h.cur, h.base.chain.head.1, Bool.false_eq_true, if_false, Res.bind, e]
  | gen r n i ns l its _ _ hs h hr =>
    have hm' : m ≤ n := hm
    have hid := h.base.susp r n h.susp
    have hb := (h.base.forget r).put_other r ⟨true, n + 5, some i, [.frame m]⟩ (h.base.lt _ h.gen) (h.base.chain.not_gen hid.1) hid.2 (upd_same _ _ _)
    rw [upd_upd, ← hs, upd_self] at hb
    obtain ⟨c', e, h2, d⟩ := pop_gen (c := { (c.put r ⟨true, n + 5, some i, [.frame m]⟩) with depth := c.depth - (n - m) }) (r := r) (m := m) (k := n + 5)
      (hb.ctx _ rfl (Nat.le_refl _)) h.cur (by simp [Ctx.put]) (by show c.depth - (n - m) = _; rw [h.depth]; omega)
    have d' : c'.depth ≤ c.depth - (n - m) - (m + 5) := d
    refine ⟨c', ?_, h2, by simp only [Fr.size]; omega⟩
    have hsz : (⟨true, n + 5, some i, [.frame n]⟩ : Obj).size = n + 5 := by simp only [Obj.size, sizes, Item.size]; omega
    have hc : m + 5 ≤ n + 5 ∧ n + 5 - (m + 5) ≤ c.depth := ⟨by omega, by rw [h.depth]; omega⟩
    have hx : n + 5 - (m + 5) = n - m := by omega
    simp only [doOp, shrink, h.cur, h.gen, if_true, hsz]
    rw [if_pos hc, hx]
    simp only [Res.bind]
    rw [← e]

end Verif.Stack
