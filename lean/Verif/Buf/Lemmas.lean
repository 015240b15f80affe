import Verif.Buf.Model
import Verif.Arr.Ops

namespace Verif.Buf

open Verif.Arr (fixIndex fixIndex_nonneg fixIndex_toNat)

/-- The buffer `s` holds the bytes `l`. -/
structure Rep (s : B) (l : List Nat) : Prop where
  size : s.size = l.length
  data : (s.data = none ∧ l = []) ∨ ∃ rest, s.data = some (l ++ rest)
  cap32 : capacity s < 4294967296
  cap : s.ext = false → capacity s % 64 = 0

theorem Rep.len_cap {s : B} {l : List Nat} (h : Rep s l) : l.length ≤ capacity s := by
  rcases h.data with ⟨_, rfl⟩ | ⟨rest, e⟩
  · simp
  · unfold capacity; rw [e]; simp

theorem alignUp_ok (n : Nat) (h : n ≤ 4294967232) : n ≤ alignUp n ∧ alignUp n ≤ 4294967232 ∧ alignUp n % 64 = 0 := by
  unfold alignUp; omega

theorem alignUp_wrap (n : Nat) (h : 4294967232 < n) (h2 : n < 4294967296) : alignUp n = 0 := by
  unfold alignUp; omega

theorem alignUp_bound (n : Nat) : alignUp n ≤ 4294967232 ∧ alignUp n % 64 = 0 := by
  unfold alignUp; omega

theorem alloc_spec (env : Env) (c : Nat) :
    (∃ d, alloc env c = some d ∧ d.length = c) ∨ (alloc env c = none ∧ env.mem c = false) := by
  unfold alloc
  cases h : env.mem c with
  | true => left; exact ⟨_, if_pos rfl, by simp⟩
  | false => right; exact ⟨by simp, rfl⟩

theorem reserve_spec (env : Env) (s : B) (l : List Nat) (n : Nat) (h : Rep s l) (hro : s.ro = false) (hx : s.ext = false) :
    (∃ s', reserve env s n = .ok () s' ∧ Rep s' l ∧ s'.ro = false ∧ s'.ext = false ∧ alignUp n ≤ capacity s' ∧
      capacity s ≤ capacity s') ∨
    (reserve env s n = .raise .outOfMemory s ∧ ∃ c, env.mem c = false) := by
  unfold reserve
  simp only [hro, hx, Bool.false_eq_true, if_false]
  by_cases hc : alignUp n > capacity s
  · rw [if_pos hc]
    rcases alloc_spec env (alignUp n) with ⟨d, e, hl⟩ | ⟨e, hm⟩
    · left
      rw [e]
      have := h.len_cap
      have hb := alignUp_bound n
      rw [h.size]
      simp only
      rw [if_neg (show ¬ l.length > capacity s by omega)]
      by_cases hz : l.length ≠ 0
      · rw [if_pos hz]
        rcases h.data with ⟨_, rfl⟩ | ⟨rest, e2⟩
        · simp at hz
        · rw [e2]
          simp only [List.take_left]
          have hcap : (l ++ d.drop l.length).length = alignUp n := by
            rw [List.length_append, List.length_drop]; omega
          refine ⟨_, rfl, ⟨rfl, Or.inr ⟨_, rfl⟩, ?_, ?_⟩, rfl, rfl, ?_, ?_⟩
          · unfold capacity; simp only; rw [hcap]; omega
          · intro _; unfold capacity; simp only; rw [hcap]; omega
          · show _ ≤ (l ++ d.drop l.length).length
            omega
          · show _ ≤ (l ++ d.drop l.length).length
            omega
      · rw [if_neg hz]
        have hl0 : l = [] := List.eq_nil_of_length_eq_zero (by omega)
        subst hl0
        refine ⟨_, rfl, ⟨rfl, Or.inr ⟨d, rfl⟩, ?_, ?_⟩, rfl, rfl, ?_, ?_⟩
        · show d.length < _
          omega
        · intro _
          show d.length % 64 = 0
          omega
        · show _ ≤ d.length
          omega
        · show _ ≤ d.length
          omega
    · right
      rw [e]
      exact ⟨rfl, _, hm⟩
  · left
    rw [if_neg hc]
    exact ⟨s, rfl, h, hro, hx, by omega, Nat.le_refl _⟩

theorem reserve_ext (env : Env) (s : B) (n : Nat) (hro : s.ro = false) (hx : s.ext = true) :
    reserve env s n = .raise .external s := by
  unfold reserve
  simp [hro, hx]

/-- Changing the size inside of the capacity. -/
theorem Rep.setSize {s : B} {l : List Nat} (h : Rep s l) (n : Nat) (hn : n ≤ capacity s) :
    ∃ j : List Nat, n ≤ l.length + j.length ∧ Rep { s with size := n } ((l ++ j).take n) := by
  rcases h.data with ⟨e, rfl⟩ | ⟨rest, e⟩
  · have : n = 0 := by unfold capacity at hn; rw [e] at hn; simpa using hn
    subst this
    exact ⟨[], by simp, ⟨rfl, Or.inl ⟨e, rfl⟩, h.cap32, h.cap⟩⟩
  · have hc : capacity s = (l ++ rest).length := by unfold capacity; rw [e]
    refine ⟨rest, by rw [hc, List.length_append] at hn; exact hn, ⟨?_, Or.inr ⟨(l ++ rest).drop n, ?_⟩, h.cap32, h.cap⟩⟩
    · rw [List.length_take]; show n = _; omega
    · rw [List.take_append_drop]; exact e

theorem resize_spec (env : Env) (s : B) (l : List Nat) (n : Nat) (h : Rep s l) (hro : s.ro = false)
    (hn : n ≤ 4294967232 ∨ s.ext = true) :
    (∃ s' j, resize env s n = .ok () s' ∧ n ≤ l.length + j.length ∧ Rep s' ((l ++ j).take n) ∧ s'.ro = false ∧ s'.ext = s.ext ∧
      (s.ext = true → capacity s' = capacity s ∧ n ≤ capacity s)) ∨
    (resize env s n = .raise .outOfMemory s ∧ n > l.length ∧ s.ext = false ∧ ∃ c, env.mem c = false) ∨
    (resize env s n = .raise .external s ∧ s.ext = true ∧ n > capacity s) := by
  unfold resize
  rw [if_neg (show ¬ s.ro = true by simp [hro])]
  have hlc := h.len_cap
  by_cases hc : n > s.size ∧ n > capacity s
  · rw [if_pos hc]
    simp only
    have hq : n ≤ 4294967232 →
        n ≤ alignUp (if n > capacity s * 2 % 4294967296 then n else capacity s * 2 % 4294967296) ∨ s.ext = true := by
      intro h1
      cases hx : s.ext with
      | true => exact Or.inr rfl
      | false =>
        left
        have hm := h.cap hx
        have h32 := h.cap32
        by_cases hi : n > capacity s * 2 % 4294967296
        · rw [if_pos hi]; exact (alignUp_ok n h1).1
        · rw [if_neg hi]
          have := alignUp_ok (capacity s * 2 % 4294967296) (by omega)
          omega
    generalize hg : (if n > capacity s * 2 % 4294967296 then n else capacity s * 2 % 4294967296) = q at hq ⊢
    cases hx : s.ext with
    | true =>
      right; right
      rw [reserve_ext env s q hro hx]
      exact ⟨rfl, rfl, hc.2⟩
    | false =>
      rw [hx] at hn hq
      simp only [Bool.false_eq_true, or_false] at hn hq
      rcases reserve_spec env s l q h hro hx with ⟨s', e, h1, h2, h3, h4, h5⟩ | ⟨e, hm⟩
      · left
        rw [e]
        obtain ⟨j, hj, hr⟩ := h1.setSize n (by have := hq hn; omega)
        exact ⟨_, j, rfl, hj, hr, h2, h3, by simp⟩
      · right; left
        rw [e]
        exact ⟨rfl, by rw [← h.size]; exact hc.1, rfl, hm⟩
  · rw [if_neg hc]
    left
    have hn' : n ≤ capacity s := by rw [h.size] at hc; omega
    obtain ⟨j, hj, hr⟩ := h.setSize n hn'
    exact ⟨_, j, rfl, hj, hr, hro, rfl, fun _ => ⟨rfl, hn'⟩⟩

theorem resize_ro (env : Env) (s : B) (n : Nat) (h : s.ro = true) : resize env s n = .raise .readOnly s := by
  unfold resize; simp [h]

theorem putBytes_spec (d : List Nat) (p : Nat) (b : List Nat) (h : p + b.length ≤ d.length) :
    putBytes d p b = some (d.take p ++ b ++ d.drop (p + b.length)) := if_pos h

/-- Overwriting bytes inside of the used part. -/
theorem Rep.put {s : B} {l : List Nat} (h : Rep s l) (p : Nat) (b : List Nat) (hp : p + b.length ≤ l.length) (hb : b ≠ []) :
    ∃ d d', s.data = some d ∧ putBytes d p b = some d' ∧ Rep { s with data := some d' } (l.take p ++ b ++ l.drop (p + b.length)) ∧
      d'.length = d.length := by
  have hb' := List.length_pos_iff.mpr hb
  rcases h.data with ⟨e, rfl⟩ | ⟨rest, e⟩
  · simp only [List.length_nil] at hp; omega
  · have hd : capacity s = (l ++ rest).length := by unfold capacity; rw [e]
    have hlen : (List.take p (l ++ rest) ++ b ++ List.drop (p + b.length) (l ++ rest)).length = (l ++ rest).length := by
      simp only [List.length_append, List.length_take, List.length_drop]; omega
    refine ⟨_, _, e, putBytes_spec _ p b (by rw [List.length_append]; omega), ⟨?_, Or.inr ⟨rest, ?_⟩, ?_, ?_⟩, hlen⟩
    · show s.size = _
      rw [h.size]; simp only [List.length_append, List.length_take, List.length_drop]; omega
    · show some _ = some _
      rw [List.take_append_of_le_length (by omega), List.drop_append_of_le_length (by omega)]
      simp only [List.append_assoc]
    · show (_ : List Nat).length < _
      rw [hlen, ← hd]; exact h.cap32
    · intro hx
      show (_ : List Nat).length % 64 = 0
      rw [hlen, ← hd]; exact h.cap hx

theorem Rep.get {s : B} {l : List Nat} (h : Rep s l) (p n : Nat) (hp : p + n ≤ l.length) (hn : 0 < n) :
    ∃ d, s.data = some d ∧ getBytes d p n = some ((l.drop p).take n) := by
  rcases h.data with ⟨e, rfl⟩ | ⟨rest, e⟩
  · simp at hp; omega
  · refine ⟨_, e, ?_⟩
    unfold getBytes
    rw [if_pos (by rw [List.length_append]; omega), List.drop_append_of_le_length (by omega),
      List.take_append_of_le_length (by rw [List.length_drop]; omega)]

theorem contents_spec (s : B) (l : List Nat) (h : Rep s l) : contents s = some l := by
  unfold contents
  rw [h.size]
  by_cases hz : l.length = 0
  · rw [if_pos hz, List.eq_nil_of_length_eq_zero hz]
  · rw [if_neg hz]
    obtain ⟨d, e, hg⟩ := h.get 0 l.length (by omega) (by omega)
    rw [e]
    simp only [hg, List.drop_zero, List.take_length]

theorem newBuffer_spec (env : Env) (n : Nat) (hn : n ≤ 4294967232) :
    (∃ s l, newBuffer env n = some s ∧ Rep s l ∧ l.length = n ∧ s.ro = false ∧ s.ext = false) ∨
    (newBuffer env n = none ∧ ∃ c, env.mem c = false) := by
  unfold newBuffer
  have ha := alignUp_ok n hn
  by_cases hz : alignUp n ≠ 0
  · simp only [if_pos hz]
    rcases alloc_spec env (alignUp n) with ⟨d, e, hl⟩ | ⟨e, hm⟩
    · left
      rw [e]
      refine ⟨_, d.take n, rfl, ⟨?_, Or.inr ⟨d.drop n, ?_⟩, ?_, ?_⟩, ?_, rfl, rfl⟩
      · rw [List.length_take]; show n = _; omega
      · rw [List.take_append_drop]
      · show d.length < _; omega
      · intro _; show d.length % 64 = 0; omega
      · rw [List.length_take]; omega
    · right; rw [e]; exact ⟨rfl, _, hm⟩
  · left
    simp only [if_neg hz]
    have : n = 0 := by omega
    subst this
    exact ⟨_, [], rfl, ⟨rfl, Or.inl ⟨rfl, rfl⟩, by show 0 < _; omega, fun _ => rfl⟩, rfl, rfl, rfl⟩

end Verif.Buf
