import Verif.Base.Slice
import Verif.Arr.Ops
import Verif.Buf.Ops
import Verif.Str.Ops
import Verif.Props.C29
import Verif.Props.C20

/-!
C19: a slice contains exactly the elements whose positions are in the range.
-/
namespace Verif.Props

/-- The position meant by an index in a sequence of `n` elements: negative indices count from the end. -/
def meant (n : Nat) (i : Int) : Int := if i < 0 then i + n else i

/-- Elements of `l` whose position is at least `b` and below `e`.  Absent limits stand for the beginning and for the end. -/
def window {V : Type} (l : List V) (b e : Option Int) : List V :=
  (l.zipIdx.filter fun p => (b.all fun b => decide (meant l.length b ≤ p.2)) && (e.all fun e => decide ((p.2 : Int) < meant l.length e))).map Prod.fst

theorem filter_range {V : Type} (lo hi : Int) : ∀ (l : List V) (k : Nat),
    ((l.zipIdx k).filter fun p => decide (lo ≤ p.2) && decide ((p.2 : Int) < hi)).map Prod.fst = (l.take (hi - k).toNat).drop (lo - k).toNat := by
  intro l
  induction l with
  | nil => intro k; simp
  | cons x l ih =>
    intro k
    have ih := ih (k + 1)
    rw [List.zipIdx_cons, List.filter_cons]
    by_cases hh : (k : Int) < hi
    · have e1 : (hi - k).toNat = (hi - ((k + 1 : Nat) : Int)).toNat + 1 := by omega
      rw [e1, List.take_succ_cons]
      by_cases hl : lo ≤ k
      · have e2 : (lo - k).toNat = 0 := by omega
        have e3 : (lo - ((k + 1 : Nat) : Int)).toNat = 0 := by omega
        rw [if_pos (by simp [hl, hh]), List.map_cons, ih, e2, e3]
        rfl
      · have e2 : (lo - k).toNat = (lo - ((k + 1 : Nat) : Int)).toNat + 1 := by omega
        rw [if_neg (by simp [hl]), ih, e2, List.drop_succ_cons]
    · have e1 : (hi - k).toNat = 0 := by omega
      have e2 : (hi - ((k + 1 : Nat) : Int)).toNat = 0 := by omega
      rw [if_neg (by simp [hh]), ih, e1, e2]
      simp

/-- The windows are the slices of the other specifications. -/
theorem window_slice {V : Type} (l : List V) (hl : (l.length : Int) ≤ 9223372036854775807) (b e : Option Int) :
    window l b e = ArrSpec.slice l (Base.sliceBegin b) (Base.sliceEnd e) := by
  have key : ∀ b e : Int, (l.take (meant l.length e - (0 : Nat)).toNat).drop (meant l.length b - (0 : Nat)).toNat = ArrSpec.slice l b e := by
    intro b e
    simp only [ArrSpec.slice, ArrSpec.clamp, meant]
    have t : ∀ x y : Nat, (x = y ∨ (l.length ≤ x ∧ l.length ≤ y)) → l.take x = l.take y := by
      rintro x y (h | ⟨h1, h2⟩)
      · rw [h]
      · rw [List.take_of_length_le h1, List.take_of_length_le h2]
    have d : ∀ (m : List V) (x y : Nat), m.length ≤ l.length → (x = y ∨ (l.length ≤ x ∧ l.length ≤ y)) → m.drop x = m.drop y := by
      rintro m x y hm (h | ⟨h1, h2⟩)
      · rw [h]
      · rw [List.drop_of_length_le (by omega), List.drop_of_length_le (by omega)]
    rw [t _ (if e < 0 then (e + l.length).toNat else min e.toNat l.length) (by split <;> omega)]
    exact d _ _ _ (by rw [List.length_take]; omega) (by split <;> omega)
  rw [← key, ← filter_range]
  unfold window
  congr 1
  apply List.filter_congr
  rintro ⟨x, i⟩ hx
  have hi := (List.mem_zipIdx hx)
  simp only [Nat.zero_add] at hi
  congr 1
  · cases b with
    | none => simp [Base.sliceBegin, meant]
    | some b => rfl
  · cases e with
    | none =>
      have : (i : Int) < 9223372036854775807 := by omega
      simp [Base.sliceEnd, meant, this]
    | some e => rfl

theorem fix_slice {V : Type} (l : List V) (b e : Int) :
    (l.drop (Arr.fixIndex b l.length).toNat).take ((Arr.fixIndex e l.length).toNat - (Arr.fixIndex b l.length).toNat) = ArrSpec.slice l b e := by
  rw [← List.drop_take]
  have : ∀ i, (Arr.fixIndex i l.length).toNat = ArrSpec.clamp i l.length := by
    intro i
    simp only [Arr.fixIndex, ArrSpec.clamp]
    split <;> split <;> (try split) <;> omega
  rw [this, this]
  rfl

theorem arr_length {V : Type} {s : Arr.A V} {l : List V} (h : Arr.Rep s l) : l.length ≤ 268435459 := by
  obtain ⟨_, h⟩ := h
  split at h
  · rw [h]; simp
  · obtain ⟨k, e, _, hb⟩ := h
    rw [e, List.length_append, List.length_map] at hb
    simp only [Arr.maxSize] at hb
    omega

/-- Arrays.  Slicing fails only if memory is refused or the slice is longer than half of the size limit. -/
theorem C19_array {V : Type} (mem : Nat → Bool) (s : Arr.A V) (l : List V) (h : Arr.Rep s l) (b e : Option Int) :
    (∃ r, Base.sliceArray mem s b e = .ok r s ∧ Arr.Rep r (window l b e)) ∨
    (Base.sliceArray mem s b e = .raise .outOfMemory s ∧ ((∃ c, mem c = false) ∨ Arr.maxSize ≤ 2 * (window l b e).length)) := by
  rw [window_slice l (by have := arr_length h; omega)]
  rcases Arr.slice_spec mem s l (Base.sliceBegin b) (Base.sliceEnd e) h with ⟨r, e1, _, e2⟩ | ⟨e1, e2⟩
  · exact Or.inl ⟨r, e1, by rw [← fix_slice]; exact e2⟩
  · refine Or.inr ⟨e1, ?_⟩
    rcases e2 with e2 | e2
    · exact Or.inl e2
    · right
      rw [← fix_slice, List.length_take, List.length_drop]
      have := Arr.fixIndex_nonneg (Base.sliceEnd e) l.length
      omega

/-- Strings. -/
theorem C19_string (env : Str.Env) (s : Str.S) (cs : List Nat) (h : Str.Rep s cs) (b e : Option Int) :
    (∃ r, Base.sliceString env s b e = .ok r ∧ Str.Rep r (window cs b e)) ∨
    (Base.sliceString env s b e = .raise .outOfMemory ∧ env.mem = false) := by
  have hmax := h.max
  rw [window_slice cs (by omega)]
  rcases Str.slice_spec env s cs (Base.sliceBegin b) (Base.sliceEnd e) h with ⟨r, e1, e2⟩ | h
  · exact Or.inl ⟨r, e1, by rw [range_clamp] at e2; exact e2⟩
  · exact Or.inr h

/-- Buffers, except those over storage of more than 4294967232 bytes provided by C code. -/
theorem C19_buffer_partial (env : Buf.Env) (s : Buf.B) (l : List Nat) (h : Buf.Rep s l) (hx : s.ext = false ∨ l.length ≤ 4294967232) (b e : Option Int) :
    (∃ r, Base.sliceBuffer env s b e = .ok r s ∧ Buf.Rep r (window l b e)) ∨
    (Base.sliceBuffer env s b e = .raise .outOfMemory s ∧ ∃ c, env.mem c = false) := by
  have hlen : l.length ≤ 4294967232 := by
    rcases hx with hx | hx
    · have h1 := h.cap hx
      have h2 := h.cap32
      have h3 := h.len_cap
      omega
    · exact hx
  rw [window_slice l (by omega)]
  rcases Buf.slice_spec env s l (Base.sliceBegin b) (Base.sliceEnd e) h (Or.inl hlen) with ⟨r, e1, _, _, e2⟩ | h
  · exact Or.inl ⟨r, e1, by rw [← fix_slice]; exact e2⟩
  · exact Or.inr h

/-- The full claim for buffers. -/
def C19_buffer_full : Prop :=
  ∀ (env : Buf.Env) (s : Buf.B) (l : List Nat), Buf.Rep s l → ∀ b e : Option Int,
    (∃ r, Base.sliceBuffer env s b e = .ok r s ∧ Buf.Rep r (window l b e)) ∨
    (Base.sliceBuffer env s b e = .raise .outOfMemory s ∧ ∃ c, env.mem c = false)

/-- The code violates it: the copy of an external buffer of 4294967233 bytes is written to a buffer with no storage. -/
theorem C19_buffer_violated : ¬ C19_buffer_full := by
  intro h
  let l := List.replicate 4294967233 0
  have hl : l.length = 4294967233 := List.length_replicate
  have hr : Buf.Rep ⟨4294967233, false, true, some l⟩ l := by
    refine ⟨hl.symm, Or.inr ⟨[], by simp⟩, ?_, by simp⟩
    show l.length < _
    rw [hl]; omega
  have : Base.sliceBuffer ⟨fun _ => true, fun _ => 0⟩ ⟨4294967233, false, true, some l⟩ (some 0) none = .bad := by
    have hn := (C20_resize_violated ⟨fun _ => true, fun _ => 0⟩ 4294967233 (by omega) (by omega)).1
    unfold Base.sliceBuffer Buf.slice
    have f1 : Arr.fixIndex (Base.sliceBegin (some 0)) 4294967233 = 0 := by decide
    have f2 : Arr.fixIndex (Base.sliceEnd none) 4294967233 = 4294967233 := by decide
    simp only [f1, f2]
    rw [if_pos (by omega), if_neg (by omega), show ((4294967233 : Int) - 0).toNat = 4294967233 from rfl, hn]
    simp only []
    rw [if_pos (by omega)]
  rcases h ⟨fun _ => true, fun _ => 0⟩ _ l hr (some 0) none with ⟨r, e, _⟩ | ⟨e, _⟩
  · rw [this] at e; exact absurd e (by simp)
  · rw [this] at e; exact absurd e (by simp)

/-- Windows of eight numbers, as in the documentation of `slice`. -/
example :
    window [1, 2, 3, 4, 5, 6, 7, 8] (some 0) (some 4) = [1, 2, 3, 4] ∧ window [1, 2, 3, 4, 5, 6, 7, 8] none none = [1, 2, 3, 4, 5, 6, 7, 8] ∧
    window [1, 2, 3, 4, 5, 6, 7, 8] (some (-5)) (some (-1)) = [4, 5, 6, 7] ∧ window [1, 2, 3] (some 2) (some (-5)) = [] ∧
    Base.sliceString ⟨true, 0, fun _ => 0⟩ ⟨.w8, false, .inObj, 8, 0, 0, [1, 2, 3, 4, 5, 6, 7, 8]⟩ (some (-5)) none =
        .ok ⟨.w8, false, .inObj, 5, 0, 0, [4, 5, 6, 7, 8]⟩ := by
  decide +kernel

end Verif.Props
