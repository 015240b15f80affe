import Verif.Mem.Pool

/-!
C47: memory pool allocations never overlap.
-/
namespace Verif.Props.C47
open Verif.Mem

/-! ## Specification -/

/-- No byte is in both of two regions, given by address and size. -/
def Apart (a b : Nat × Nat) : Prop := ∀ x, ¬ (a.1 ≤ x ∧ x < a.1 + a.2 ∧ b.1 ≤ x ∧ x < b.1 + b.2)

/-- What `KOS_malloc` promises: the new region is apart from those in use, and aligned. -/
def Promised (live : List (Nat × Nat)) (addr size : Nat) : Prop :=
  0 < addr ∧ addr % 8 = 0 ∧ addr + size ≤ 2 ^ 64 ∧ ∀ b ∈ live, Apart (addr, size) b

/-- The size which an allocation asks `KOS_malloc` for. -/
def asked (size : Nat) : Nat := let n := (size + 7) / 8 * 8; if n > 4096 then n + 16 else 65536

/-- Histories which keep to the contract: `KOS_malloc` keeps its promise, and the user writes to blocks only (that is, every 8 bytes which
touch no block are left as they are). Sizes are less than 2^32 - 7. -/
def Legal (w : World) (blocks : List (Nat × Nat)) : List Ev → Prop
  | [] => True
  | .alloc size m fail :: es =>
    size ≤ 2 ^ 32 - 8 ∧ (∀ a, m = some a → Promised w.live a (asked size)) ∧
      Legal (run w blocks [.alloc size m fail]).1 (run w blocks [.alloc size m fail]).2 es
  | .write mem :: es =>
    (∀ p, (∀ b ∈ blocks, Apart (p, 8) b) → mem p = w.mem p) ∧ Legal { w with mem := mem } blocks es

/-! ## Invariant -/

/-- The list of buffers in memory. -/
def Chain (mem : Nat → Nat) : Nat → List Nat → Prop
  | p, [] => p = 0
  | p, a :: l => p = a ∧ a ≠ 0 ∧ Chain mem (mem a) l

theorem Chain.congr {mem mem' : Nat → Nat} : ∀ {l : List Nat} {p : Nat}, (∀ a ∈ l, mem' a = mem a) → Chain mem p l → Chain mem' p l := by
  intro l
  induction l with
  | nil => intro p _ h; exact h
  | cons a l ih =>
    intro p h hc
    refine ⟨hc.1, hc.2.1, ?_⟩
    rw [h a List.mem_cons_self]
    exact ih (fun b hb => h b (List.mem_cons_of_mem _ hb)) hc.2.2

structure Inv (w : World) (blocks : List (Nat × Nat)) : Prop where
  chain : ∃ l, Chain w.mem w.pool.buffers l ∧ l.Perm (w.live.map (·.1))
  live : ∀ b ∈ w.live, 0 < b.1 ∧ b.1 % 8 = 0 ∧ 16 ≤ b.2
  apart : w.live.Pairwise Apart
  inside : ∀ b ∈ blocks, 0 < b.2 → ∃ c ∈ w.live, c.1 + 8 ≤ b.1 ∧ b.1 + b.2 ≤ c.1 + c.2
  align : ∀ b ∈ blocks, b.1 % 8 = 0
  blocksApart : blocks.Pairwise Apart
  free : w.pool.next % 8 = 0 ∧ w.pool.free % 8 = 0
  freeInside : 0 < w.pool.free → w.pool.buffers ≠ 0 ∧ ∃ c ∈ w.live, c.1 + 8 ≤ w.pool.next ∧ w.pool.next + w.pool.free ≤ c.1 + c.2
  freeApart : ∀ b ∈ blocks, Apart (w.pool.next, w.pool.free) b

theorem mask7 (n : Nat) (h : n ≤ 2 ^ 32 - 8) : (n + 7) % 2 ^ 64 &&& (2 ^ 32 - 1 - 7) = (n + 7) / 8 * 8 := by
  have h1 : (n + 7) % 2 ^ 64 = n + 7 := by omega
  rw [h1]
  have h2 : n + 7 < 2 ^ 32 := by omega
  generalize n + 7 = m at *
  apply Nat.eq_of_testBit_eq
  intro i
  rw [Nat.testBit_and, show (8 : Nat) = 2 ^ 3 by rfl, Nat.testBit_mul_two_pow, Nat.testBit_div_two_pow]
  by_cases hi : 3 ≤ i
  · by_cases hi2 : i < 32
    · have : (2 ^ 32 - 1 - 7 : Nat).testBit i = true := by
        have : ∀ j : Fin 32, 3 ≤ j.val → (2 ^ 32 - 1 - 7 : Nat).testBit j.val = true := by decide
        exact this ⟨i, hi2⟩ hi
      rw [this, Bool.and_true]
      simp only [hi, decide_true, Bool.true_and]
      rw [Nat.sub_add_cancel hi]
    · have : m.testBit i = false := Nat.testBit_lt_two_pow (Nat.lt_of_lt_of_le h2 (Nat.pow_le_pow_right (by omega) (by omega)))
      rw [this]
      simp only [hi, decide_true, Bool.true_and]
      rw [Nat.sub_add_cancel hi, this]; rfl
  · have : (2 ^ 32 - 1 - 7 : Nat).testBit i = false := by
      have : ∀ j : Fin 3, (2 ^ 32 - 1 - 7 : Nat).testBit j.val = false := by decide
      exact this ⟨i, by omega⟩
    rw [this]
    simp [hi]

theorem apart_symm {a b : Nat × Nat} (h : Apart a b) : Apart b a := fun x hx => h x ⟨hx.2.2.1, hx.2.2.2, hx.1, hx.2.1⟩

theorem apart_addr {a b : Nat × Nat} (h : Apart a b) (ha : 0 < a.2) (hb : 0 < b.2) : a.1 ≠ b.1 := by
  intro heq
  exact h a.1 ⟨Nat.le_refl _, by omega, by omega, by omega⟩

/-- A region within another is apart from what that is apart from. -/
theorem apart_within {a b c : Nat × Nat} (h : Apart a b) (h1 : a.1 ≤ c.1) (h2 : c.1 + c.2 ≤ a.1 + a.2) : Apart c b :=
  fun x hx => h x ⟨by omega, by omega, hx.2.2.1, hx.2.2.2⟩

/-- Headers are apart from blocks. -/
theorem Inv.header {w : World} {blocks : List (Nat × Nat)} (I : Inv w blocks) {c b : Nat × Nat} (hc : c ∈ w.live) (hb : b ∈ blocks) : Apart (c.1, 8) b := by
  intro x hx
  obtain ⟨d, hd, h1, h2⟩ := I.inside b hb (by omega)
  have hsz := (I.live c hc).2.2
  simp only at hx
  by_cases hcd : c = d
  · subst hcd; omega
  · have : ∀ (l : List (Nat × Nat)), l.Pairwise Apart → c ∈ l → d ∈ l → Apart c d := by
      intro l
      induction l with
      | nil => intro _ h; cases h
      | cons y l ih =>
        intro hp hcl hdl
        obtain ⟨p1, p2⟩ := List.pairwise_cons.mp hp
        rcases List.mem_cons.mp hcl with h1 | h1
        · rcases List.mem_cons.mp hdl with h2 | h2
          · exact absurd (h1.trans h2.symm) hcd
          · rw [h1]; exact p1 d h2
        · rcases List.mem_cons.mp hdl with h2 | h2
          · rw [h2]; exact apart_symm (p1 c h1)
          · exact ih p2 h1 h2
    exact this _ I.apart hc hd x ⟨by omega, by omega, by omega, by omega⟩

theorem Inv.write {w : World} {blocks : List (Nat × Nat)} (I : Inv w blocks) (mem : Nat → Nat)
    (h : ∀ p, (∀ b ∈ blocks, Apart (p, 8) b) → mem p = w.mem p) : Inv { w with mem := mem } blocks := by
  obtain ⟨l, h1, h2⟩ := I.chain
  refine ⟨⟨l, Chain.congr ?_ h1, h2⟩, I.live, I.apart, I.inside, I.align, I.blocksApart, I.free, I.freeInside, I.freeApart⟩
  intro a ha
  apply h
  intro b hb
  obtain ⟨c, hc, rfl⟩ := List.mem_map.mp (h2.mem_iff.mp ha)
  exact I.header hc hb

/-- A new buffer from `KOS_malloc` is not one of the pool's. -/
theorem fresh {w : World} {blocks : List (Nat × Nat)} (I : Inv w blocks) {a n : Nat} (hp : Promised w.live a n) (hn : 16 ≤ n) {l : List Nat}
    (hl : l.Perm (w.live.map (·.1))) : a ∉ l := by
  intro ha
  obtain ⟨c, hc, hca⟩ := List.mem_map.mp (hl.mem_iff.mp ha)
  have := (I.live c hc).2.2
  exact apart_addr (hp.2.2.2 c hc) (by simp only; omega) (by omega) hca.symm

theorem chain_nodup {w : World} {blocks : List (Nat × Nat)} (I : Inv w blocks) {l : List Nat} (hl : l.Perm (w.live.map (·.1))) : l.Nodup := by
  rw [hl.nodup_iff]
  unfold List.Nodup
  rw [List.pairwise_map]
  have h1 := I.live
  have h2 := I.apart
  generalize w.live = L at *
  clear hl I
  induction L with
  | nil => exact List.Pairwise.nil
  | cons x L ih =>
    obtain ⟨p1, p2⟩ := List.pairwise_cons.mp h2
    refine List.pairwise_cons.mpr ⟨?_, ih (fun b hb => h1 b (List.mem_cons_of_mem _ hb)) p2⟩
    intro y hy
    exact apart_addr (p1 y hy) (by have := (h1 x List.mem_cons_self).2.2; omega) (by have := (h1 y (List.mem_cons_of_mem _ hy)).2.2; omega)

theorem Inv.take {w : World} {blocks : List (Nat × Nat)} (I : Inv w blocks) (buf n size : Nat) (hs : n ≤ w.pool.free) (hn : n % 8 = 0) (hsz : size ≤ n) :
    Inv (take w buf n).1 (if (take w buf n).2 = 0 then blocks else ((take w buf n).2, size) :: blocks) := by
  unfold Mem.take
  by_cases hb : buf ≠ 0
  · rw [if_pos hb]
    obtain ⟨f1, f2⟩ := I.free
    have hbase : Inv ⟨{ w.pool with next := w.pool.next + n, free := w.pool.free - n }, w.mem, w.live⟩ blocks := by
      refine ⟨I.chain, I.live, I.apart, I.inside, I.align, I.blocksApart, ⟨by simp only; omega, by simp only; omega⟩, ?_, ?_⟩
      · intro hf
        simp only at hf
        obtain ⟨k1, c, hc, k2, k3⟩ := I.freeInside (by omega)
        exact ⟨k1, c, hc, by simp only; omega, by simp only; omega⟩
      · intro b hb'
        refine apart_within (I.freeApart b hb') ?_ ?_ <;> (simp only; omega)
    simp only
    by_cases h0 : w.pool.next = 0
    · rw [if_pos h0]; exact hbase
    · rw [if_neg h0]
      refine ⟨hbase.chain, hbase.live, hbase.apart, ?_, ?_, ?_, hbase.free, hbase.freeInside, ?_⟩
      · intro b hb' hpos
        rcases List.mem_cons.mp hb' with rfl | hb'
        · simp only at hpos
          obtain ⟨_, c, hc, k2, k3⟩ := I.freeInside (by omega)
          exact ⟨c, hc, k2, by simp only; omega⟩
        · exact hbase.inside b hb' hpos
      · intro b hb'
        rcases List.mem_cons.mp hb' with rfl | hb'
        · exact f1
        · exact I.align b hb'
      · refine List.pairwise_cons.mpr ⟨?_, I.blocksApart⟩
        intro b hb'
        refine apart_within (I.freeApart b hb') ?_ ?_ <;> (simp only; omega)
      · intro b hb'
        rcases List.mem_cons.mp hb' with rfl | hb'
        · intro x hx; simp only at hx; omega
        · exact hbase.freeApart b hb'
  · rw [if_neg hb]
    simp only [if_true]
    exact I

/-- Blocks are apart from a new buffer. -/
theorem Inv.newBuf {w : World} {blocks : List (Nat × Nat)} (I : Inv w blocks) {a n : Nat} (hp : Promised w.live a n) {b : Nat × Nat} (hb : b ∈ blocks) :
    Apart (a, n) b := by
  intro x hx
  obtain ⟨c, hc, h1, h2⟩ := I.inside b hb (by omega)
  exact hp.2.2.2 c hc x ⟨hx.1, hx.2.1, by omega, by omega⟩

theorem Inv.alloc {w : World} {blocks : List (Nat × Nat)} (I : Inv w blocks) (size : Nat) (m : Option Nat) (fail : Bool) (hs : size ≤ 2 ^ 32 - 8)
    (hm : ∀ a, m = some a → Promised w.live a (asked size)) :
    Inv (poolAlloc w size m fail).1 (if (poolAlloc w size m fail).2 = 0 then blocks else ((poolAlloc w size m fail).2, size) :: blocks) := by
  unfold poolAlloc
  rw [mask7 size hs]
  unfold asked at hm
  generalize hn : (size + 7) / 8 * 8 = n at *
  have hn8 : n % 8 = 0 := by omega
  have hnle : size ≤ n := by omega
  have hnb : n ≤ 2 ^ 32 := by omega
  simp only
  by_cases hfree : n > w.pool.free
  · rw [if_pos hfree]
    by_cases hlarge : n > 65536 / 16
    · rw [if_pos hlarge]
      simp only [show n > 4096 by omega, if_true] at hm
      unfold allocLarge
      have hsz : (n + 16) % 2 ^ 64 = n + 16 := by omega
      rw [hsz]
      cases m with
      | none => simp only [if_true]; exact I
      | some buf =>
        have hp := hm buf rfl
        obtain ⟨l, hc, hl⟩ := I.chain
        have hnotin := fresh I hp (by omega) hl
        have hnd := chain_nodup I hl
        obtain ⟨p1, p2, p3, p4⟩ := hp
        simp only
        -- everything but the list of buffers
        have rest : ∀ (pool : Pool) (mem : Nat → Nat), pool.next = w.pool.next → (pool.free = w.pool.free ∨ pool.free = 0) → pool.buffers ≠ 0 →
            (∃ l, Chain mem pool.buffers l ∧ l.Perm (buf :: w.live.map (·.1))) →
            Inv ⟨pool, mem, (buf, n + 16) :: w.live⟩ (if buf + 16 = 0 then blocks else (buf + 16, size) :: blocks) := by
          intro pool mem q1 q2 q3 q4
          rw [if_neg (by omega)]
          refine ⟨q4, ?_, ?_, ?_, ?_, ?_, ⟨by rw [q1]; exact I.free.1, ?_⟩, ?_, ?_⟩
          · intro b hb
            rcases List.mem_cons.mp hb with rfl | hb
            · exact ⟨p1, p2, by simp only; omega⟩
            · exact I.live b hb
          · exact List.pairwise_cons.mpr ⟨p4, I.apart⟩
          · intro b hb hpos
            rcases List.mem_cons.mp hb with rfl | hb
            · exact ⟨(buf, n + 16), List.mem_cons_self, by simp only; omega, by simp only; omega⟩
            · obtain ⟨c, hc, h⟩ := I.inside b hb hpos
              exact ⟨c, List.mem_cons_of_mem _ hc, h⟩
          · intro b hb
            rcases List.mem_cons.mp hb with rfl | hb
            · simp only; omega
            · exact I.align b hb
          · refine List.pairwise_cons.mpr ⟨?_, I.blocksApart⟩
            intro b hb
            refine apart_within (I.newBuf ⟨p1, p2, p3, p4⟩ hb) ?_ ?_ <;> (simp only; omega)
          · have := I.free.2; simp only; omega
          · intro hf
            simp only at hf
            obtain ⟨_, c, hc', k2, k3⟩ := I.freeInside (by omega)
            exact ⟨q3, c, List.mem_cons_of_mem _ hc', by simp only; omega, by simp only; omega⟩
          · intro b hb
            simp only [q1]
            rcases List.mem_cons.mp hb with rfl | hb
            · intro x hx
              simp only at hx
              obtain ⟨_, c, hc', k2, k3⟩ := I.freeInside (by omega)
              exact p4 c hc' x ⟨by simp only; omega, by simp only; omega, by omega, by omega⟩
            · refine apart_within (I.freeApart b hb) ?_ ?_ <;> (simp only; omega)
        by_cases hbuf : w.pool.buffers ≠ 0
        · rw [if_pos hbuf]
          apply rest _ _ rfl (Or.inl rfl) hbuf
          cases l with
          | nil => exact absurd hc hbuf
          | cons top l =>
            obtain ⟨c1, c2, c3⟩ := hc
            have htb : top ≠ buf := fun h => hnotin (by rw [h]; exact List.mem_cons_self)
            refine ⟨top :: buf :: l, ⟨c1, c2, ?_⟩, ?_⟩
            · simp only [store]
              rw [c1, if_pos rfl]
              refine ⟨rfl, by omega, ?_⟩
              have hst : store (store w.mem buf (w.mem top)) top buf buf = w.mem top := by
                unfold store
                rw [if_neg (fun h => htb h.symm)]; exact if_pos rfl
              have c4 : Chain (store (store w.mem buf (w.mem top)) top buf) (store (store w.mem buf (w.mem top)) top buf buf) l := by
                rw [hst]
                refine Chain.congr ?_ c3
                intro x hx
                simp only [store]
                rw [if_neg, if_neg]
                · intro h; exact hnotin (by rw [← h]; exact List.mem_cons_of_mem _ hx)
                · intro h; rw [h] at hx; exact (List.nodup_cons.mp hnd).1 hx
              exact c4
            · exact (List.Perm.swap buf top l).trans (List.Perm.cons buf hl)
        · rw [if_neg hbuf]
          refine rest ⟨0, w.pool.next, buf⟩ _ rfl (Or.inr rfl) (by simp only; omega) ?_
          have hz : w.pool.buffers = 0 := by omega
          rw [hz] at hc
          cases l with
          | nil =>
            refine ⟨[buf], ⟨rfl, by omega, ?_⟩, List.Perm.cons buf hl⟩
            show store w.mem buf 0 buf = 0
            simp [store]
          | cons top l => exact absurd hc.1.symm hc.2.1
    · rw [if_neg hlarge]
      rw [if_neg (show ¬ n > 4096 by omega)] at hm
      cases m with
      | none =>
        simp only [Mem.take, ne_eq, not_true_eq_false, if_false, if_true]
        exact I
      | some buf =>
        have hp := hm buf rfl
        obtain ⟨l, hc, hl⟩ := I.chain
        have hnotin := fresh I hp (by omega) hl
        obtain ⟨p1, p2, p3, p4⟩ := hp
        have I2 : Inv ⟨⟨65536 - 16 + 8, buf + 8, buf⟩, store w.mem buf w.pool.buffers, (buf, 65536) :: w.live⟩ blocks := by
          refine ⟨⟨buf :: l, ⟨rfl, by omega, ?_⟩, List.Perm.cons buf hl⟩, ?_, List.pairwise_cons.mpr ⟨p4, I.apart⟩, ?_, I.align, I.blocksApart,
            ⟨by simp only; omega, by simp only⟩, ?_, ?_⟩
          · have : store w.mem buf w.pool.buffers buf = w.pool.buffers := by simp [store]
            simp only [this]
            refine Chain.congr ?_ hc
            intro x hx
            simp only [store]
            rw [if_neg]
            intro h; exact hnotin (by rw [← h]; exact hx)
          · intro b hb
            rcases List.mem_cons.mp hb with rfl | hb
            · exact ⟨p1, p2, by simp only; omega⟩
            · exact I.live b hb
          · intro b hb hpos
            obtain ⟨c, hc, h⟩ := I.inside b hb hpos
            exact ⟨c, List.mem_cons_of_mem _ hc, h⟩
          · intro _
            exact ⟨by simp only; omega, (buf, 65536), List.mem_cons_self, Nat.le_refl _, by simp only; omega⟩
          · intro b hb
            refine apart_within (I.newBuf ⟨p1, p2, p3, p4⟩ hb) ?_ ?_ <;> (simp only; omega)
        exact I2.take buf n size (by simp only; omega) hn8 hnle
  · rw [if_neg hfree]
    by_cases hf : ¬ fail = true
    · rw [if_pos hf]; exact I.take _ n size (by omega) hn8 hnle
    · rw [if_neg hf]; exact I.take _ n size (by omega) hn8 hnle

theorem run_inv (es : List Ev) : ∀ (w : World) (blocks : List (Nat × Nat)), Inv w blocks → Legal w blocks es → Inv (run w blocks es).1 (run w blocks es).2 := by
  induction es with
  | nil => intro w blocks I _; exact I
  | cons e es ih =>
    intro w blocks I hL
    cases e with
    | alloc size m fail =>
      obtain ⟨h1, h2, h3⟩ := hL
      exact ih _ _ (I.alloc size m fail h1 h2) h3
    | write mem =>
      obtain ⟨h1, h2⟩ := hL
      exact ih _ _ (I.write mem h1) h2

theorem destroy_chain (mem : Nat → Nat) : ∀ (l : List Nat) (p fuel : Nat), Chain mem p l → l.length < fuel → poolDestroy mem fuel p = some l := by
  intro l
  induction l with
  | nil =>
    intro p fuel h hf
    cases fuel with
    | zero => omega
    | succ fuel => have : p = 0 := h; subst this; simp [poolDestroy]
  | cons a l ih =>
    intro p fuel h hf
    cases fuel with
    | zero => omega
    | succ fuel =>
      obtain ⟨rfl, h2, h3⟩ := h
      simp only [List.length_cons] at hf
      unfold poolDestroy
      rw [if_pos h2, ih _ fuel h3 (by omega)]

/-- What holds after any history: blocks are apart from each other, aligned and inside the memory of the pool (behind the header of a buffer), and
destruction frees every buffer of the pool once. -/
def Sound (w : World) (blocks : List (Nat × Nat)) : Prop :=
  blocks.Pairwise Apart ∧ (∀ b ∈ blocks, b.1 % 8 = 0) ∧ (∀ b ∈ blocks, 0 < b.2 → ∃ c ∈ w.live, c.1 + 8 ≤ b.1 ∧ b.1 + b.2 ≤ c.1 + c.2) ∧
    w.live.Pairwise Apart ∧ ∃ freed, poolDestroy w.mem (w.live.length + 1) w.pool.buffers = some freed ∧ freed.Perm (w.live.map (·.1))

theorem Inv.sound {w : World} {blocks : List (Nat × Nat)} (I : Inv w blocks) : Sound w blocks := by
  obtain ⟨l, hc, hl⟩ := I.chain
  refine ⟨I.blocksApart, I.align, I.inside, I.apart, l, destroy_chain w.mem l _ _ hc ?_, hl⟩
  have := hl.length_eq
  simp only [List.length_map] at this
  omega

theorem inv_init (mem : Nat → Nat) : Inv (poolInit mem) [] :=
  ⟨⟨[], rfl, List.Perm.refl _⟩, by simp [poolInit], List.Pairwise.nil, by simp, by simp, List.Pairwise.nil, ⟨rfl, rfl⟩, by simp [poolInit], by simp⟩

theorem mask1023 (n : Nat) (h : n ≤ 2 ^ 32 - 1024) : (n + 1023) % 2 ^ 64 &&& (2 ^ 32 - 1 - 1023) = (n + 1023) / 1024 * 1024 := by
  have h1 : (n + 1023) % 2 ^ 64 = n + 1023 := by omega
  rw [h1]
  have h2 : n + 1023 < 2 ^ 32 := by omega
  generalize n + 1023 = m at *
  apply Nat.eq_of_testBit_eq
  intro i
  rw [Nat.testBit_and, show (1024 : Nat) = 2 ^ 10 by rfl, Nat.testBit_mul_two_pow, Nat.testBit_div_two_pow]
  by_cases hi : 10 ≤ i
  · by_cases hi2 : i < 32
    · have : (2 ^ 32 - 1 - 1023 : Nat).testBit i = true := by
        have : ∀ j : Fin 32, 10 ≤ j.val → (2 ^ 32 - 1 - 1023 : Nat).testBit j.val = true := by decide
        exact this ⟨i, hi2⟩ hi
      rw [this, Bool.and_true]
      simp only [hi, decide_true, Bool.true_and]
      rw [Nat.sub_add_cancel hi]
    · have : m.testBit i = false := Nat.testBit_lt_two_pow (Nat.lt_of_lt_of_le h2 (Nat.pow_le_pow_right (by omega) (by omega)))
      rw [this]
      simp only [hi, decide_true, Bool.true_and]
      rw [Nat.sub_add_cancel hi, this]; rfl
  · have : (2 ^ 32 - 1 - 1023 : Nat).testBit i = false := by
      have : ∀ j : Fin 10, (2 ^ 32 - 1 - 1023 : Nat).testBit j.val = false := by decide
      exact this ⟨i, by omega⟩
    rw [this]
    simp [hi]

theorem inv_initSmall (mem : Nat → Nat) (size : Nat) (m : Option Nat) (h0 : 0 < size) (hs : size ≤ 2 ^ 32 - 1024)
    (hm : ∀ a, m = some a → Promised [] a ((size + 1023) / 1024 * 1024)) : Inv (poolInitSmall mem size m) [] := by
  unfold poolInitSmall
  rw [mask1023 size hs]
  generalize hn : (size + 1023) / 1024 * 1024 = n at *
  have h1 : 1024 ≤ n := by omega
  have h8 : n % 8 = 0 := by omega
  have hle : n ≤ 2 ^ 32 := by omega
  cases m with
  | none => exact inv_init mem
  | some buf =>
    obtain ⟨p1, p2, p3, _⟩ := hm buf rfl
    have hf : (n + 2 ^ 64 - 16 + 8) % 2 ^ 64 = n - 8 := by omega
    simp only [hf]
    refine ⟨⟨[buf], ⟨rfl, by omega, by show store mem buf 0 buf = 0; simp [store]⟩, List.Perm.refl _⟩, ?_, by simp, by simp, by simp, List.Pairwise.nil, ⟨by simp only; omega, by simp only; omega⟩, ?_, by simp⟩
    · intro b hb
      rcases List.mem_singleton.mp hb
      exact ⟨p1, p2, by simp only; omega⟩
    · intro _
      exact ⟨by simp only; omega, (buf, n), List.mem_cons_self, Nat.le_refl _, by simp only; omega⟩

/-! ## Theorems -/

/-- **C47**, for requests of less than 2^32 - 7 bytes (and, if the pool is made by `KOS_mempool_init_small`, for an initial size which is neither 0
nor above 2^32 - 1024): after every history, in which `KOS_malloc` may fail at any time and the user may write anything to blocks, blocks are
pairwise disjoint, aligned and inside of the pool's memory, and destruction frees each of the pool's buffers once.

The full claim is about requests of any size; see `C47_pool_violated`. -/
theorem C47_pool_partial (mem : Nat → Nat) (es : List Ev) :
    (Legal (poolInit mem) [] es → Sound (run (poolInit mem) [] es).1 (run (poolInit mem) [] es).2) ∧
    (∀ size m, 0 < size → size ≤ 2 ^ 32 - 1024 → (∀ a, m = some a → Promised [] a ((size + 1023) / 1024 * 1024)) →
      Legal (poolInitSmall mem size m) [] es → Sound (run (poolInitSmall mem size m) [] es).1 (run (poolInitSmall mem size m) [] es).2) :=
  ⟨fun h => (run_inv es _ _ (inv_init mem) h).sound, fun size m h0 hs hm h => (run_inv es _ _ (inv_initSmall mem size m h0 hs hm) h).sound⟩

/-- An allocation fails only if memory was refused, or if nothing was asked for. -/
theorem C47_fails_only_without_memory (mem : Nat → Nat) (es : List Ev) (hL : Legal (poolInit mem) [] es) (size : Nat) (a : Nat) (hs : size ≤ 2 ^ 32 - 8)
    (h0 : 0 < size) (hp : Promised (run (poolInit mem) [] es).1.live a (asked size)) : (poolAlloc (run (poolInit mem) [] es).1 size (some a) false).2 ≠ 0 := by
  have I := run_inv es _ _ (inv_init mem) hL
  generalize (run (poolInit mem) [] es).1 = w at *
  unfold poolAlloc
  rw [mask7 size hs]
  simp only
  split
  · split
    · unfold allocLarge
      simp only
      split <;> simp
    · unfold Mem.take
      have := hp.1
      rw [if_pos (by omega)]; simp
  · rename_i hf
    obtain ⟨hb, c, hc, h1, h2⟩ := I.freeInside (by omega)
    simp only [Bool.false_eq_true, not_false_eq_true, if_true]
    unfold Mem.take
    rw [if_pos hb]
    simp only; omega

/-- The claim is false for larger requests: `~7U` has 32 bits only, so a request for 2^32 bytes is taken for one of 0 bytes. The block returned is not
in the pool's memory, and overlaps the next one. -/
theorem C47_pool_violated : ∃ es : List Ev, ∃ blocks, (run (poolInit fun _ => 0) [] es).2 = blocks ∧ ¬ blocks.Pairwise Apart ∧
    (run (poolInit fun _ => 0) [] es).1.live = [(4096, 65536)] ∧ es.length = 3 := by
  refine ⟨[.alloc 8 (some 4096) false, .alloc (2 ^ 32) none false, .alloc 8 none false], [(4112, 8), (4112, 2 ^ 32), (4104, 8)], by decide, ?_, by decide, rfl⟩
  intro h
  have := (List.pairwise_cons.mp h).1 (4112, 2 ^ 32) List.mem_cons_self 4112
  exact this ⟨by decide, by decide, by decide, by decide⟩

/-- It is also false for a pool with initial size 0: its free space is taken to be 2^64 - 8 bytes. -/
theorem C47_init_small_violated : (poolInitSmall (fun _ => 0) 0 (some 4096)).live = [(4096, 0)] ∧
    (run (poolInitSmall (fun _ => 0) 0 (some 4096)) [] [.alloc 100 none false]).2 = [(4104, 100)] := by
  constructor <;> rfl

/-- Example: the history keeps to the contract. -/
example : Promised [(4096, 65536)] 1048576 (asked 70000) := by
  refine ⟨by decide, by decide, by decide, ?_⟩
  intro b hb x hx
  rcases List.mem_singleton.mp hb
  simp only at hx
  omega

/-- Example: a small block, a large one, and a small one from the first buffer again; with what the user writes to the first block. -/
def exampleRun : List Ev :=
  [.alloc 5 (some 4096) false, .alloc 70000 (some 1048576) false, .write (fun x => if x = 4104 then 77 else if x = 4096 then 1048576 else 0), .alloc 16 none false]

example : (run (poolInit fun _ => 0) [] exampleRun).2 = [(4112, 16), (1048592, 70000), (4104, 5)] ∧
    poolDestroy (run (poolInit fun _ => 0) [] exampleRun).1.mem 3 (run (poolInit fun _ => 0) [] exampleRun).1.pool.buffers = some [4096, 1048576] := by
  decide +kernel

end Verif.Props.C47
