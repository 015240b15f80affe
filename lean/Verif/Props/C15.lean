import Verif.Rb.Unlink

/-!
C15: the red-black tree keeps its contents in order.

A history inserts and deletes nodes, each with a key.  Memory outside of the tree can change in any way in the meantime.
-/
namespace Verif.Props

open Verif.Rb (Heap Ptr Node)

variable {K : Type}

/-- Operations on a tree.  `a` is the address of a node. -/
inductive RbOp (K : Type)
  /-- Insert a node at `a`, which has contents `n` before, and key `k`. -/
  | insert (a : Nat) (n : Node) (k : K)
  /-- Delete a node; `lf` is the address of the local variable `leaf`. -/
  | delete (a lf : Nat)
  /-- Other code changes something at `a`. -/
  | other (a : Nat) (n : Option Node) (k : K)

/-- The heap, the root pointer and the keys, which are in memory around nodes. -/
structure RbState (K : Type) where
  h : Heap
  root : Ptr
  key : Nat → K

def RbState.set (s : RbState K) (a : Nat) (n : Option Node) (k : K) : RbState K :=
  { s with h := fun b => if b = a then n else s.h b, key := fun b => if b = a then k else s.key b }

def rbStep (cmp : K → K → Int) (fuel : Nat) (s : RbState K) : RbOp K → Option (RbState K)
  | .insert a n k =>
    let s := s.set a (some n) k
    (Rb.insert (fun x y => cmp (s.key x) (s.key y)) fuel s.h s.root a).map fun r => { s with h := r.1, root := r.2 }
  | .delete a lf => (Rb.delete fuel lf s.h s.root a).map fun r => { s with h := r.1, root := r.2 }
  | .other a n k => some (s.set a n k)

def rbRun (cmp : K → K → Int) (fuel : Nat) (s : RbState K) : List (RbOp K) → Option (RbState K)
  | [] => some s
  | op :: ops => (rbStep cmp fuel s op).bind fun s => rbRun cmp fuel s ops

/-! ### Independent specification: sorted lists -/
namespace RbSpec

/-- Insert after the items which are not greater. -/
def insert (cmp : K → K → Int) (a : Nat) (k : K) : List (Nat × K) → List (Nat × K)
  | [] => [(a, k)]
  | p :: l => if cmp k p.2 < 0 then (a, k) :: p :: l else p :: insert cmp a k l

def step (cmp : K → K → Int) (l : List (Nat × K)) : RbOp K → List (Nat × K)
  | .insert a _ k => insert cmp a k l
  | .delete a _ => l.filter (·.1 ≠ a)
  | .other _ _ _ => l

def run (cmp : K → K → Int) (l : List (Nat × K)) (ops : List (RbOp K)) : List (Nat × K) := ops.foldl (step cmp) l

/-- A node is inserted only once, only nodes in the tree are deleted, other code does not touch the tree. -/
def legal (l : List (Nat × K)) : RbOp K → Prop
  | .insert a _ _ => a ∉ l.map (·.1)
  | .delete a lf => a ∈ l.map (·.1) ∧ lf ∉ l.map (·.1)
  | .other a _ _ => a ∉ l.map (·.1)

def Legal (cmp : K → K → Int) : List (Nat × K) → List (RbOp K) → Prop
  | _, [] => True
  | l, op :: ops => legal l op ∧ Legal cmp (step cmp l op) ops

/-- The comparison function is a strict weak order. -/
structure Order (cmp : K → K → Int) : Prop where
  asymm : ∀ a b, cmp a b < 0 → ¬ cmp b a < 0
  cotrans : ∀ a b c, cmp a c < 0 → cmp a b < 0 ∨ cmp b c < 0

/-- A sought item has a place in the order. -/
def Item (cmp : K → K → Int) (f : K → Int) : Prop :=
  ∀ a b, ¬ cmp b a < 0 → (f a < 0 → f b < 0) ∧ (f b > 0 → f a > 0)

end RbSpec

/-! ### Invariant -/

structure RbInv (cmp : K → K → Int) (s : RbState K) (l : List (Nat × K)) (t : Rb.T) (m : Nat) : Prop where
  z : Rb.Z s.h s.root .top t
  bal : Rb.Bal t m
  black : t.black
  keys : t.keys = l.map (·.1)
  key : ∀ p ∈ l, s.key p.1 = p.2
  sorted : l.Pairwise fun p q => ¬ cmp q.2 p.2 < 0

theorem rb_bal_size : ∀ {t : Rb.T} {m : Nat}, Rb.Bal t m → 2 ^ m ≤ t.keys.length + 1 := by
  intro t
  induction t with
  | nil => rintro m rfl; simp [Rb.T.keys]
  | node l a c r ihl ihr =>
    rintro m (⟨_, m, rfl, h1, h2⟩ | ⟨_, _, _, h1, h2⟩)
    · have := ihl h1; have := ihr h2
      simp only [Rb.T.keys, List.length_append, List.length_cons, Nat.pow_succ]; omega
    · have := ihl h1
      simp only [Rb.T.keys, List.length_append, List.length_cons]; omega

theorem rb_bal_height : ∀ {t : Rb.T} {m : Nat}, Rb.Bal t m → t.height ≤ 2 * m + 1 ∧ (t.black → t.height ≤ 2 * m) := by
  intro t
  induction t with
  | nil => rintro m rfl; simp [Rb.T.height]
  | node l a c r ihl ihr =>
    rintro m (⟨rfl, m, rfl, h1, h2⟩ | ⟨rfl, b1, b2, h1, h2⟩)
    · have := (ihl h1).1; have := (ihr h2).1
      simp only [Rb.T.height]; omega
    · have := (ihl h1).2 b1; have := (ihr h2).2 b2
      refine ⟨by simp only [Rb.T.height]; omega, fun h => absurd h (by simp [Rb.T.black])⟩

theorem RbInv.height {cmp : K → K → Int} {s : RbState K} {l : List (Nat × K)} {t : Rb.T} {m : Nat} (i : RbInv cmp s l t m) :
    t.height ≤ 2 * Nat.log2 (l.length + 1) := by
  have h1 := (rb_bal_height i.bal).2 i.black
  have h2 := rb_bal_size i.bal
  rw [i.keys, List.length_map] at h2
  have := (Nat.le_log2 (by omega)).mpr h2
  omega

theorem rb_insert_split (cmp : K → K → Int) (a : Nat) (k : K) : ∀ (u v : List (Nat × K)), (∀ p ∈ u, ¬ cmp k p.2 < 0) → (∀ p ∈ v, cmp k p.2 < 0) →
    RbSpec.insert cmp a k (u ++ v) = u ++ (a, k) :: v := by
  intro u
  induction u with
  | nil =>
    intro v _ hv
    cases v with
    | nil => rfl
    | cons p v => simp [RbSpec.insert, hv p (by simp)]
  | cons p u ih =>
    intro v hu hv
    simp only [List.cons_append, RbSpec.insert, hu p (by simp), if_false]
    rw [ih v (fun q hq => hu q (by simp [hq])) hv]

theorem rb_map_split {α β : Type} (f : α → β) : ∀ (x y : List β) (l : List α), l.map f = x ++ y → ∃ u v, l = u ++ v ∧ u.map f = x ∧ v.map f = y := by
  intro x y l h
  exact List.map_eq_append_iff.mp h

theorem RbInv.step {cmp : K → K → Int} (hc : RbSpec.Order cmp) {s : RbState K} {l : List (Nat × K)} {t : Rb.T} {m fuel : Nat} (i : RbInv cmp s l t m)
    (op : RbOp K) (hl : RbSpec.legal l op) (hf : 2 * Nat.log2 (l.length + 1) + 5 ≤ fuel) :
    ∃ s' t' m', rbStep cmp fuel s op = some s' ∧ RbInv cmp s' (RbSpec.step cmp l op) t' m' := by
  have hh := i.height
  have hset : ∀ a n k, a ∉ l.map (·.1) → RbInv cmp (s.set a n k) l t m := by
    intro a n k ha
    refine ⟨i.z.frame fun b hb => ?_, i.bal, i.black, i.keys, fun p hp => ?_, i.sorted⟩
    · have : b ≠ a := by rintro rfl; exact ha (i.keys ▸ hb)
      simp [RbState.set, this]
    · have : p.1 ≠ a := by rintro rfl; exact ha (List.mem_map.mpr ⟨p, hp, rfl⟩)
      simp [RbState.set, this, i.key p hp]
  cases op with
  | other a n k => exact ⟨_, t, m, rfl, hset a n k hl⟩
  | insert a n k =>
    have i' := hset a (some n) k hl
    have hk : (s.set a (some n) k).key a = k := by simp [RbState.set]
    have hw : Rb.Weak fun x y => cmp ((s.set a (some n) k).key x) ((s.set a (some n) k).key y) :=
      ⟨fun _ _ => hc.asymm _ _, fun _ _ _ => hc.cotrans _ _ _⟩
    have hsorted : Rb.Sorted (fun x y => cmp ((s.set a (some n) k).key x) ((s.set a (some n) k).key y)) t.keys := by
      rw [i.keys, Rb.Sorted, List.pairwise_map]
      refine i.sorted.imp_of_mem ?_
      intro p q hp hq h
      rw [i'.key p hp, i'.key q hq]
      exact h
    obtain ⟨h', root', t', m', x, y, e, z', hb', hbl', hx, hxy, hlo, hhi, hs⟩ := Rb.insert_spec hw (new := a) (fuel := fuel) (nn := n) i'.z hsorted i.bal i.black
      (by omega) (by rw [i.keys]; exact hl) (by simp [RbState.set])
    rw [i.keys] at hx
    obtain ⟨u, v, rfl, rfl, rfl⟩ := rb_map_split _ _ _ _ hx
    have hlo' : ∀ p ∈ u, ¬ cmp k p.2 < 0 := by
      intro p hp
      have := hlo p.1 (List.mem_map.mpr ⟨p, hp, rfl⟩)
      rw [hk, i'.key p (by simp [hp])] at this
      exact this
    have hhi' : ∀ p ∈ v, cmp k p.2 < 0 := by
      intro p hp
      have := hhi p.1 (List.mem_map.mpr ⟨p, hp, rfl⟩)
      rw [hk, i'.key p (by simp [hp])] at this
      exact this
    have hins : RbSpec.step cmp (u ++ v) (.insert a n k) = u ++ (a, k) :: v := rb_insert_split cmp a k u v hlo' hhi'
    refine ⟨_, t', m', by simp only [rbStep, e]; rfl, z', hb', hbl', ?_, ?_, ?_⟩
    · rw [hxy, hins]; simp
    · rw [hins]
      intro p hp
      simp only [List.mem_append, List.mem_cons] at hp
      rcases hp with hp | rfl | hp
      · exact i'.key p (by simp [hp])
      · exact hk
      · exact i'.key p (by simp [hp])
    · rw [hins]
      have := i.sorted
      simp only [List.pairwise_append, List.pairwise_cons] at this ⊢
      refine ⟨this.1, ⟨fun p hp => hc.asymm _ _ (hhi' p hp), this.2.1⟩, ?_⟩
      intro p hp q hq
      rcases List.mem_cons.mp hq with rfl | hq
      · exact hlo' p hp
      · exact this.2.2 p hp q hq
  | delete a lf =>
    obtain ⟨h', root', t', m', x, y, e, z', hb', hbl', hx, hxy, hs⟩ := Rb.delete_spec (z := a) (lf := lf) (fuel := fuel) i.z i.bal i.black
      (by rw [i.keys]; exact hl.1) (by rw [i.keys]; exact hl.2) (by omega)
    have hnd : t.keys.Nodup := by simpa [Rb.C.pre, Rb.C.post] using i.z.nodup
    rw [hx] at hnd
    rw [i.keys] at hx
    obtain ⟨u, v', rfl, rfl, hv⟩ := rb_map_split _ _ _ _ hx
    obtain ⟨p0, v, rfl, rfl, rfl⟩ := List.map_eq_cons_iff.mp hv
    have hfil : RbSpec.step cmp (u ++ p0 :: v) (.delete p0.1 lf) = u ++ v := by
      simp only [List.nodup_append, List.nodup_cons, List.mem_cons] at hnd
      simp only [RbSpec.step, List.filter_append, List.filter_cons, ne_eq, not_true, decide_false, Bool.false_eq_true, if_false]
      congr 1
      · rw [List.filter_eq_self]
        intro p hp
        simp only [decide_not, Bool.not_eq_eq_eq_not, Bool.not_true, decide_eq_false_iff_not]
        exact hnd.2.2 p.1 (List.mem_map.mpr ⟨p, hp, rfl⟩) p0.1 (Or.inl rfl)
      · rw [List.filter_eq_self]
        intro p hp
        simp only [decide_not, Bool.not_eq_eq_eq_not, Bool.not_true, decide_eq_false_iff_not]
        intro e
        exact hnd.2.1.1 (List.mem_map.mpr ⟨p, hp, e⟩)
    refine ⟨_, t', m', by simp only [rbStep, e]; rfl, z', hb', hbl', ?_, ?_, ?_⟩
    · rw [hxy, hfil]; simp
    · rw [hfil]
      intro p hp
      refine i.key p ?_
      simp only [List.mem_append, List.mem_cons] at hp ⊢
      rcases hp with hp | hp <;> simp [hp]
    · rw [hfil]
      have := i.sorted
      simp only [List.pairwise_append, List.pairwise_cons, List.mem_cons] at this ⊢
      exact ⟨this.1, this.2.1.2, fun p hp q hq => this.2.2 p hp q (Or.inr hq)⟩

theorem rb_length_insert (cmp : K → K → Int) (a : Nat) (k : K) : ∀ l : List (Nat × K), (RbSpec.insert cmp a k l).length = l.length + 1 := by
  intro l
  induction l with
  | nil => rfl
  | cons p l ih => simp only [RbSpec.insert]; split <;> simp [ih]

theorem rb_length_step (cmp : K → K → Int) (l : List (Nat × K)) (op : RbOp K) : (RbSpec.step cmp l op).length ≤ l.length + 1 := by
  cases op with
  | insert a n k => exact Nat.le_of_eq (rb_length_insert cmp a k l)
  | delete a lf => exact Nat.le_trans (List.length_filter_le _ _) (Nat.le_succ _)
  | other a n k => exact Nat.le_succ _

theorem rb_log2_mono {a b : Nat} (h : a ≤ b) : Nat.log2 a ≤ Nat.log2 b := by
  by_cases h0 : a = 0
  · subst h0; simp
  · rw [Nat.le_log2 (by omega)]
    exact Nat.le_trans (Nat.log2_self_le h0) h

theorem RbInv.run {cmp : K → K → Int} (hc : RbSpec.Order cmp) {fuel : Nat} : ∀ (ops : List (RbOp K)) (s : RbState K) (l : List (Nat × K)) (t : Rb.T) (m : Nat),
    RbInv cmp s l t m → RbSpec.Legal cmp l ops → 2 * Nat.log2 (l.length + ops.length + 1) + 5 ≤ fuel →
    ∃ s' t' m', rbRun cmp fuel s ops = some s' ∧ RbInv cmp s' (RbSpec.run cmp l ops) t' m' := by
  intro ops
  induction ops with
  | nil => intro s l t m i _ _; exact ⟨s, t, m, rfl, i⟩
  | cons op ops ih =>
    intro s l t m i hl hf
    simp only [List.length_cons] at hf
    have h1 : Nat.log2 (l.length + 1) ≤ Nat.log2 (l.length + (ops.length + 1) + 1) := rb_log2_mono (by omega)
    obtain ⟨s1, t1, m1, e, i1⟩ := i.step hc op hl.1 (fuel := fuel) (by omega)
    have h2 := rb_length_step cmp l op
    have h3 : Nat.log2 ((RbSpec.step cmp l op).length + ops.length + 1) ≤ Nat.log2 (l.length + (ops.length + 1) + 1) := rb_log2_mono (by omega)
    obtain ⟨s', t', m', e', i'⟩ := ih s1 _ t1 m1 i1 hl.2 (by omega)
    exact ⟨s', t', m', by simp [rbRun, e, e'], i'⟩

theorem RbInv.init (cmp : K → K → Int) (h : Heap) (key : Nat → K) : RbInv cmp ⟨h, none, key⟩ [] .nil 0 :=
  ⟨⟨trivial, rfl, by simp [Rb.C.pre, Rb.C.post, Rb.T.keys]⟩, rfl, trivial, rfl, by simp, .nil⟩

/-- C15.  No legal history follows a dangling pointer, fails an assertion or takes more than logarithmically many iterations in any
loop; afterwards a walk visits exactly the nodes which are in the tree, in order, and a search finds a node exactly if there is
one. -/
theorem C15_tree {cmp : K → K → Int} (hc : RbSpec.Order cmp) (h : Heap) (key : Nat → K) (ops : List (RbOp K)) (hl : RbSpec.Legal cmp [] ops)
    (fuel : Nat) (hf : 2 * Nat.log2 (ops.length + 1) + 5 ≤ fuel) :
    let l := RbSpec.run cmp [] ops
    ∃ s, rbRun cmp fuel ⟨h, none, key⟩ ops = some s ∧
      (∀ f, 2 * l.length < f → Rb.walk s.h f s.root = some (l.map (·.1))) ∧
      (∀ p ∈ l, s.key p.1 = p.2) ∧ l.Pairwise (fun p q => ¬ cmp q.2 p.2 < 0) ∧
      ∀ f : K → Int, RbSpec.Item cmp f → ∃ q, Rb.find (fun a => f (s.key a)) s.h fuel s.root = some q ∧
        (∀ a, q = some a → ∃ k, (a, k) ∈ l ∧ f k = 0) ∧ (q = none → ∀ p ∈ l, f p.2 ≠ 0) := by
  obtain ⟨s, t, m, e, i⟩ := RbInv.run hc ops ⟨h, none, key⟩ [] .nil 0 (.init cmp h key) hl (fuel := fuel) (by simpa using hf)
  have hlen : ∀ (ops : List (RbOp K)) (l : List (Nat × K)), (RbSpec.run cmp l ops).length ≤ l.length + ops.length := by
    intro ops
    induction ops with
    | nil => intro l; simp [RbSpec.run]
    | cons op ops ih =>
      intro l
      have h1 := ih (RbSpec.step cmp l op)
      have h2 := rb_length_step cmp l op
      simp only [RbSpec.run, List.foldl_cons, List.length_cons] at h1 ⊢
      omega
  have hh := i.height
  have hlog : Nat.log2 ((RbSpec.run cmp [] ops).length + 1) ≤ Nat.log2 (ops.length + 1) := rb_log2_mono (by have := hlen ops []; simp at this; omega)
  have hlin : ∀ t : Rb.T, t.height ≤ t.keys.length := by
    intro t
    induction t with
    | nil => simp [Rb.T.height]
    | node l a c r ihl ihr => simp only [Rb.T.height, Rb.T.keys, List.length_append, List.length_cons]; omega
  refine ⟨s, e, fun f hf => ?_, i.key, i.sorted, fun f hi => ?_⟩
  · have h1 := hlin t
    rw [i.keys, List.length_map] at h1
    by_cases h0 : t.keys = []
    · have : (RbSpec.run cmp [] ops).length = 0 := by
        have := congrArg List.length i.keys
        rw [h0, List.length_map] at this
        exact this.symm
      rw [Rb.walk_spec i.z (by omega) (by rw [h0]; simp; omega), i.keys]
    · have h2 : t.keys.length = (RbSpec.run cmp [] ops).length := by rw [i.keys, List.length_map]
      rw [Rb.walk_spec i.z (by omega) (by omega), i.keys]
  · have hr : s.root = t.ptr := i.z.csub
    obtain ⟨q, e1, e2, e3⟩ := Rb.find_spec (cmp := fun a => f (s.key a)) fuel i.z.sub (by omega) (by
      rw [i.keys, List.pairwise_map]
      refine i.sorted.imp_of_mem ?_
      intro p q hp hq h
      rw [i.key p hp, i.key q hq]
      exact hi _ _ h)
    rw [← hr] at e1
    refine ⟨q, e1, fun a ha => ?_, fun hq p hp => ?_⟩
    · obtain ⟨h1, h2⟩ := e2 a ha
      rw [i.keys] at h1
      obtain ⟨p, hp, rfl⟩ := List.mem_map.mp h1
      refine ⟨p.2, hp, ?_⟩
      rw [← i.key p hp]; exact h2
    · have := e3 hq p.1 (by rw [i.keys]; exact List.mem_map.mpr ⟨p, hp, rfl⟩)
      simpa [i.key p hp] using this

/-! ### Example -/

def rbJunk : Node := ⟨some 77, some 78, none, 5⟩

def rbExOps : List (RbOp Int) :=
  [.insert 10 rbJunk 5, .insert 11 rbJunk 3, .insert 12 rbJunk 5, .other 50 none 0, .insert 13 rbJunk 1, .insert 14 rbJunk 9, .delete 10 99, .insert 10 rbJunk 4]

example : (rbRun (fun a b => a - b) 20 ⟨fun _ => none, none, fun _ => 0⟩ rbExOps).bind (fun s => Rb.walk s.h 20 s.root) = some [13, 11, 10, 12, 14] := by
  decide +kernel

example : RbSpec.run (fun a b => a - b) [] rbExOps = [(13, 1), (11, 3), (10, 4), (12, 5), (14, 9)] := by decide +kernel

end Verif.Props
