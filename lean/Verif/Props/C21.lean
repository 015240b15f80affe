import Verif.Props.C20

/-!
C21: `buffer.prototype.insert` is a splice.
-/
namespace Verif.Props

open Verif.Buf

namespace BufSpec

/-- The documented meaning: a position is an index, from the end if negative, limited to the buffer.  With two arguments, `void`
is the end of the buffer; with three, a `void` begin is 0 and a `void` end is the end of the buffer. -/
def pos (three : Bool) (first : Bool) (i : Option Int) (n : Nat) : Nat :=
  match i with
  | some i => ArrSpec.clamp i n
  | none => if three ∧ first then 0 else n

/-- Bytes from `begin` up to `end` are replaced by `xs`. -/
def insert (l : List Nat) (three : Bool) (b e : Option Int) (xs : List Nat) : List Nat :=
  let p := pos three true b l.length
  let q := pos three false (if three then e else b) l.length
  l.take p ++ xs ++ l.drop (max p q)

end BufSpec

theorem fix_id (i n : Nat) (h : i ≤ n) : Verif.Arr.fixIndex (i : Int) n = i := by
  unfold Verif.Arr.fixIndex; simp only
  rw [if_neg (show ¬ ((i : Int) < 0) by omega), if_neg (show ¬ ((i : Int) < 0) by omega)]
  split <;> omega

theorem fix_max (n : Nat) (h : n < 4294967296) : Verif.Arr.fixIndex 9223372036854775807 n = n := by
  unfold Verif.Arr.fixIndex; simp only
  rw [if_neg (show ¬ ((9223372036854775807 : Int) < 0) by omega), if_neg (show ¬ ((9223372036854775807 : Int) < 0) by omega),
    if_pos (show (9223372036854775807 : Int) > n by omega)]

/-- The steps of `insert` once the positions are known. -/
theorem insertAt_spec (env : Env) (s : B) (l : List Nat) (o : B) (m : List Nat) (b e : Nat) (h : Rep s l) (hro : s.ro = false)
    (hx : s.ext = false) (ho : Rep o m) (hbe : b ≤ e) (hel : e ≤ l.length) (hl : l.length ≤ 2147483647) :
    (∃ s', insertAt env s b e (some o) = .ok () s' ∧ Rep s' (l.take b ++ m ++ l.drop e) ∧ s'.ro = false) ∨
    (insertAt env s b e (some o) = .raise .outOfMemory s ∧ ∃ c, env.mem c = false) ∨
    (insertAt env s b e (some o) = .raise .badSize s ∧ 2147483647 < l.length + m.length - (e - b)) := by
  have hmc := ho.len_cap
  have hm32 := ho.cap32
  unfold insertAt
  simp only [Option.getD_some, h.size, ho.size]
  -- last copy
  have last : ∀ s3 l3, Rep s3 l3 → s3.ro = false → l3.length = l.length + m.length - (e - b) → l3.take b = l.take b →
      l3.drop (b + m.length) = l.drop e →
      ∃ s', (if (m.length : Int) ≠ 0 then copy s3 b (some o) 0 9223372036854775807 else .ok () s3) = .ok () s' ∧
        Rep s' (l.take b ++ m ++ l.drop e) ∧ s'.ro = false := by
    intro s3 l3 h3 hro3 hlen ht hd
    by_cases hz : (m.length : Int) ≠ 0
    · rw [if_pos hz]
      obtain ⟨s', e1, g1, g2, _, _⟩ := copy_spec s3 l3 b (some o) m 0 9223372036854775807 h3 hro3 ho
      refine ⟨s', e1, ?_, g2⟩
      rw [fix_id b l3.length (by omega), fix_max m.length (by omega), show (0 : Int) = ((0 : Nat) : Int) from rfl,
        fix_id 0 m.length (by omega)] at g1
      simp only [Int.toNat_natCast, List.drop_zero, Nat.sub_zero, List.take_length] at g1
      rw [show List.take (l3.length - b) m = m from List.take_of_length_le (by omega), ht, hd] at g1
      exact g1
    · rw [if_neg hz]
      refine ⟨s3, rfl, ?_, hro3⟩
      have hm0 : m = [] := List.eq_nil_of_length_eq_zero (by omega)
      subst hm0
      rw [List.append_nil, ← ht, ← hd]
      simp only [List.length_nil, Nat.add_zero, List.take_append_drop]
      exact h3
  by_cases hg : (l.length : Int) + m.length + b - e > l.length
  · -- growing
    rw [if_pos hg]
    have hnn : ¬ ((l.length : Int) + m.length + b - e < l.length) := by omega
    simp only [if_neg hnn]
    by_cases hbig : (l.length : Int) + m.length + b - e > 2147483647
    · right; right
      have : baseResize env s ((l.length : Int) + m.length + b - e) 0 = .raise .badSize s := by
        unfold baseResize; simp only; rw [if_pos (Or.inr hbig)]
      rw [this]
      exact ⟨rfl, by omega⟩
    generalize hN : (l.length : Int) + m.length + b - e = N at *
    rcases baseResize_spec env s l N 0 h hro (by omega) (by omega) (by omega) (by omega) with
        ⟨s1, e1, h1, h2, h3, h4⟩ | ⟨e1, h1, h2, hm⟩ | ⟨e1, h1, h2⟩
    · left
      rw [e1]
      simp only
      rw [show List.take N.toNat l = l from List.take_of_length_le (by omega)] at h1
      generalize hz : List.replicate (N.toNat - l.length) (Int.toNat 0) = z at h1
      have hzl : z.length = N.toNat - l.length := by rw [← hz, List.length_replicate]
      by_cases hc : (e : Int) < l.length
      · rw [if_pos hc]
        obtain ⟨s2, e2, g1, g2, _, _⟩ := copy_spec s1 (l ++ z) (b + m.length) none (l ++ z) e 9223372036854775807 h1 h2 h1
        rw [e2]
        simp only
        have hlz : (l ++ z).length = N.toNat := by rw [List.length_append]; omega
        rw [fix_max _ (by omega), show (b : Int) + m.length = ((b + m.length : Nat) : Int) by omega, fix_id _ _ (by omega),
          fix_id e _ (by omega)] at g1
        simp only [Int.toNat_natCast] at g1
        have hq : ((l ++ z).drop e).take ((l ++ z).length - e) = l.drop e ++ z := by
          rw [List.take_of_length_le (by rw [List.length_drop]; omega), List.drop_append_of_le_length hel]
        have hq2 : List.take ((l ++ z).length - (b + m.length)) (l.drop e ++ z) = l.drop e := by
          apply List.take_left'
          rw [List.length_drop]; omega
        rw [hq, hq2, show List.drop (b + m.length + ((l ++ z).length - e)) (l ++ z) = [] from List.drop_of_length_le (by omega),
          List.append_nil] at g1
        refine last s2 _ g1 g2 ?_ ?_ ?_
        · simp only [List.length_append, List.length_take, List.length_drop]; omega
        · rw [List.take_append_of_le_length (by rw [List.length_take]; omega), List.take_take,
              show min b (b + m.length) = b by omega, List.take_append_of_le_length (by omega)]
        · apply List.drop_left'
          rw [List.length_take]; omega
      · rw [if_neg hc]
        simp only
        refine last s1 _ h1 h2 (by rw [List.length_append]; omega) ?_ ?_
        · rw [List.take_append_of_le_length (by omega)]
        · rw [show List.drop e l = [] from List.drop_of_length_le (by omega)]
          exact List.drop_of_length_le (by rw [List.length_append]; omega)
    · right; left
      rw [e1]
      exact ⟨rfl, hm⟩
    · rw [hx] at h1; cases h1
  · left
    rw [if_neg hg]
    simp only
    -- second step
    have second : ∃ s2 l2, (if (e : Int) < l.length then copy s (b + m.length) none e 9223372036854775807 else .ok () s) = .ok () s2 ∧
        Rep s2 l2 ∧ s2.ro = false ∧ s2.ext = false ∧ l2.length = l.length ∧ l2.take (l.length + m.length + b - e) = l.take (b + m.length) ++ l.drop e := by
      by_cases hc : (e : Int) < l.length
      · rw [if_pos hc]
        obtain ⟨s2, e2, g1, g2, g3, _⟩ := copy_spec s l (b + m.length) none l e 9223372036854775807 h hro h
        have h32 := h.cap32
        rw [fix_max _ (by omega), show (b : Int) + m.length = ((b + m.length : Nat) : Int) by omega, fix_id _ _ (by omega),
          fix_id e _ (by omega)] at g1
        simp only [Int.toNat_natCast] at g1
        rw [List.take_take, show min (l.length - (b + m.length)) (l.length - e) = l.length - e by omega,
          show List.take (l.length - e) (l.drop e) = l.drop e from List.take_of_length_le (by rw [List.length_drop]; omega)] at g1
        refine ⟨s2, _, e2, g1, g2, by rw [g3, hx], ?_, ?_⟩
        · simp only [List.length_append, List.length_take, List.length_drop]; omega
        · apply List.take_left'
          simp only [List.length_append, List.length_take, List.length_drop]; omega
      · rw [if_neg hc]
        refine ⟨s, l, rfl, h, hro, hx, rfl, ?_⟩
        rw [show List.drop e l = [] from List.drop_of_length_le (by omega), List.append_nil,
          show l.length + m.length + b - e = b + m.length by omega]
    obtain ⟨s2, l2, e2, r2, ro2, x2, len2, t2⟩ := second
    rw [e2]
    simp only
    have third : ∃ s3, (if (l.length : Int) + m.length + b - e < l.length then baseResize env s2 ((l.length : Int) + m.length + b - e) 0 else .ok () s2) = .ok () s3 ∧
        Rep s3 (l.take (b + m.length) ++ l.drop e) ∧ s3.ro = false := by
      by_cases hs : (l.length : Int) + m.length + b - e < l.length
      · rw [if_pos hs]
        rcases baseResize_spec env s2 l2 ((l.length : Int) + m.length + b - e) 0 r2 ro2 (by omega) (by omega) (by omega) (by omega) with
          ⟨s3, e3, h1, h2, h3, h4⟩ | ⟨e3, h1, h2, hm⟩ | ⟨e3, h1, h2⟩
        · refine ⟨s3, e3, ?_, h2⟩
          rw [show ((l.length : Int) + m.length + b - e).toNat = l.length + m.length + b - e by omega, t2,
            show l.length + m.length + b - e - l2.length = 0 by omega] at h1
          simpa using h1
        · omega
        · rw [x2] at h1; cases h1
      · rw [if_neg hs]
        refine ⟨s2, rfl, ?_, ro2⟩
        rw [← t2, show List.take (l.length + m.length + b - e) l2 = l2 from List.take_of_length_le (by omega)]
        exact r2
    obtain ⟨s3, e3, r3, ro3⟩ := third
    rw [e3]
    simp only
    refine last s3 _ r3 ro3 ?_ ?_ ?_
    · simp only [List.length_append, List.length_take, List.length_drop]; omega
    · rw [List.take_append_of_le_length (by rw [List.length_take]; omega), List.take_take, show min b (b + m.length) = b by omega]
    · apply List.drop_left'
      rw [List.length_take]; omega

theorem insBegin_eq (n : Nat) (three : Bool) (b : Option Int) (hb : ∀ i ∈ b, i ≤ (n : Int)) :
    insBegin n three b = (BufSpec.pos three true b n : Nat) ∧ BufSpec.pos three true b n ≤ n := by
  unfold insBegin BufSpec.pos ArrSpec.clamp
  cases b with
  | none => cases three <;> simp <;> omega
  | some i =>
    have := hb i rfl
    simp only [reduceCtorEq, and_false, if_false, Option.getD_some]
    repeat' split
    all_goals omega

theorem insEnd_eq (n : Nat) (three : Bool) (b e : Option Int) (p : Nat) (hp : p ≤ n) :
    insEnd n three b e p = (max p (BufSpec.pos three false (if three then e else b) n) : Nat) ∧
      BufSpec.pos three false (if three then e else b) n ≤ n := by
  unfold insEnd
  generalize (if three = true then e else b) = ee
  unfold BufSpec.pos ArrSpec.clamp
  cases ee with
  | none =>
    simp only [Option.getD_none, Bool.false_eq_true, and_false, if_false]
    repeat' split
    all_goals omega
  | some i =>
    simp only [Option.getD_some]
    repeat' split
    all_goals omega

/-- Insertion of another buffer `o` is the documented splice, for every size and every pair of positions, unless memory is
refused or the result would exceed 2^31 - 1 bytes; then an exception is raised and the buffer is unchanged.

Partial: the code is wrong for begin positions after the end of the buffer (`hb`) and when the inserted buffer is the
buffer itself; see the counterexamples below. -/
theorem C21_insert_partial (env : Env) (s o : B) (l m : List Nat) (three : Bool) (b e : Option Int) (h : Rep s l) (hro : s.ro = false)
    (hx : s.ext = false) (ho : Rep o m) (hl : l.length ≤ 2147483647) (hb : ∀ i ∈ b, i ≤ (l.length : Int)) :
    (∃ s', Buf.insert env s three b e (some o) = .ok () s' ∧ Rep s' (BufSpec.insert l three b e m) ∧ s'.ro = false) ∨
    (Buf.insert env s three b e (some o) = .raise .outOfMemory s ∧ ∃ c, env.mem c = false) ∨
    (Buf.insert env s three b e (some o) = .raise .badSize s ∧ 2147483647 < (BufSpec.insert l three b e m).length) := by
  obtain ⟨h1, h2⟩ := insBegin_eq l.length three b hb
  obtain ⟨h3, h4⟩ := insEnd_eq l.length three b e _ h2
  unfold Buf.insert
  simp only [h.size, h1, h3]
  have hi : BufSpec.insert l three b e m = l.take (BufSpec.pos three true b l.length) ++ m ++
    l.drop (max (BufSpec.pos three true b l.length) (BufSpec.pos three false (if three then e else b) l.length)) := rfl
  rw [hi]
  generalize BufSpec.pos three true b l.length = p at *
  generalize BufSpec.pos three false (if three then e else b) l.length = q at *
  have hlen : (l.take p ++ m ++ l.drop (max p q)).length = l.length + m.length - (max p q - p) := by
    simp only [List.length_append, List.length_take, List.length_drop]; omega
  rw [hlen]
  exact insertAt_spec env s l o m p (max p q) h hro hx ho (by omega) (by omega) hl

/-- The full claim: all positions, and any source. -/
def C21_insert_full : Prop :=
  ∀ (s : B) (l : List Nat) (src : Option B) (m : List Nat) (b e : Int), Rep s l → s.ro = false → s.ext = false → Rep (src.getD s) m →
    ∃ s', Buf.insert ⟨fun _ => true, fun _ => 0⟩ s true (some b) (some e) src = .ok () s' ∧
      contents s' = some (BufSpec.insert l true (some b) (some e) m)

/-- A buffer with 64 bytes of storage. -/
def buf64 (l : List Nat) : B := ⟨l.length, false, false, some (l ++ List.replicate (64 - l.length) 0)⟩

theorem buf64_rep (l : List Nat) (h : l.length ≤ 64) : Rep (buf64 l) l := by
  have hc : capacity (buf64 l) = 64 := by
    show (l ++ List.replicate (64 - l.length) 0).length = 64
    simp only [List.length_append, List.length_replicate]; omega
  exact ⟨rfl, Or.inr ⟨_, rfl⟩, by omega, fun _ => by omega⟩

/-- A begin position after the end: the buffer grows by zero bytes in place of the inserted byte. -/
theorem C21_insert_violated : ¬ C21_insert_full := by
  intro h
  obtain ⟨s', e1, e2⟩ := h (buf64 [1, 2, 3]) [1, 2, 3] (some (buf64 [9])) [9] 100 100 (buf64_rep _ (by decide)) rfl rfl
    (buf64_rep _ (by decide))
  have e3 : Buf.insert ⟨fun _ => true, fun _ => 0⟩ (buf64 [1, 2, 3]) true (some 100) (some 100) (some (buf64 [9])) =
      .ok () (buf64 [1, 2, 3, 0]) := by decide +kernel
  rw [e3] at e1
  injection e1 with _ e1
  rw [← e1] at e2
  revert e2
  decide +kernel

/-- Inserting a buffer into itself: `[1, 2]` into `[1, 2]` at 0 gives `[1, 2, 0, 0]`. -/
theorem C21_self_insert_violated : ¬ C21_insert_full := by
  intro h
  obtain ⟨s', e1, e2⟩ := h (buf64 [1, 2]) [1, 2] none [1, 2] 0 0 (buf64_rep _ (by decide)) rfl rfl (buf64_rep _ (by decide))
  have e3 : Buf.insert ⟨fun _ => true, fun _ => 0⟩ (buf64 [1, 2]) true (some 0) (some 0) none =
      .ok () (buf64 [1, 2, 0, 0]) := by decide +kernel
  rw [e3] at e1
  injection e1 with _ e1
  rw [← e1] at e2
  revert e2
  decide +kernel

/-- Replacing two bytes by three, and three by one. -/
example :
    Buf.insert ⟨fun _ => true, fun _ => 0⟩ (buf64 [1, 2, 3, 4, 5]) true (some (-4)) (some 3) (some (buf64 [7, 8, 9])) =
      .ok () (buf64 [1, 7, 8, 9, 4, 5]) ∧
    BufSpec.insert [1, 2, 3, 4, 5] true (some 1) (some (-1)) [7] = [1, 7, 5] := by decide +kernel

end Verif.Props
