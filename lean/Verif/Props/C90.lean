import Verif.Arr.InsertIter

/-!
C90: `array.insert` replaces a range by the elements of an iterable (modules/base.kos:352-407).

Full statement (`C90_full`): the elements in the range are replaced by those which the iterable has when the function is called.

What is proved: this holds for arrays and for iterables whose elements do not depend on the array.  It is false for an iterator over the array itself.
-/
namespace Verif.InsertIter

variable {V : Type}

/-- A position: negative numbers count from the end; the result is in the array or at its end. -/
def place (i : Int) (n : Nat) : Nat := (max 0 (min (n : Int) (if i < 0 then n + i else i))).toNat

/-- The elements from `b` to `e` are replaced; if `e` comes before `b`, none are. -/
def replaced (l : List V) (b e : Nat) (xs : List V) : List V := l.take b ++ xs ++ l.drop (max b e)

/-- What a source has when the array is `l`. -/
def elems (l : List V) : Src V → List V
  | .array xs => xs
  | .iter gs => gs.map (· l)

/-- The elements do not depend on the array. -/
def Separate : Src V → Prop
  | .array _ => True
  | .iter gs => ∀ g ∈ gs, ∀ l l', g l = g l'

def C90_full (V : Type) : Prop := ∀ (l : List V) (b e : Option Int) (s : Src V), l.length < 2 ^ 32 →
  insert3 l b e s = some (replaced l ((b.map (place · l.length)).getD 0) ((e.map (place · l.length)).getD l.length) (elems l s))

theorem fixIndex_place (i : Int) (n : Nat) : fixIndex i n = place i n := by
  unfold fixIndex place
  by_cases h : i < 0 <;> simp only [h, if_true, if_false] <;> split <;> first | omega | (split <;> omega)

theorem insertArray_spec (l : List V) (b e : Option Int) (xs : List V) (hl : l.length < 2 ^ 32) :
    insertArray l b e xs = replaced l ((b.map (place · l.length)).getD 0) ((e.map (place · l.length)).getD l.length) xs := by
  have hb : fixIndex (b.getD 0) l.length = (((b.map (place · l.length)).getD 0 : Nat) : Int) := by
    rw [fixIndex_place]
    cases b with
    | none => simp [place]; omega
    | some b => rfl
  have he : fixIndex (e.getD 9223372036854775807) l.length = (((e.map (place · l.length)).getD l.length : Nat) : Int) := by
    rw [fixIndex_place]
    cases e with
    | none =>
      simp only [Option.getD_none, Option.map_none]
      unfold place
      rw [if_neg (by omega)]
      omega
    | some e => rfl
  unfold insertArray replaced
  simp only [hb, he]
  generalize (b.map (place · l.length)).getD 0 = B
  generalize (e.map (place · l.length)).getD l.length = E
  have hm : (if ((E : Nat) : Int) < (B : Int) then (B : Int) else (E : Int)).toNat = max B E := by split <;> omega
  rw [hm, Int.toNat_natCast]

/-- The loop stores as many elements as there are or as fit. -/
theorem loop_spec (gs : List (List V → V)) : ∀ (l : List V) (b e : Nat), b < e → e ≤ l.length → (∀ g ∈ gs, ∀ l l', g l = g l') →
    loop l b e gs = some (l.take b ++ (gs.take (e - b)).map (· l) ++ l.drop (b + min gs.length (e - b)), ((b + min gs.length (e - b) : Nat) : Int), gs.drop (e - b)) := by
  induction gs with
  | nil => intro l b e _ _ _; simp [loop]
  | cons g gs ih =>
    intro l b e hb he hg
    have ha : assign l (b : Int) (g l) = some (l.set b (g l)) := by
      have hi : (if (b : Int) < 0 then (b : Int) + l.length else b) = b := if_neg (by omega)
      unfold assign
      simp only [hi]
      rw [if_pos (by omega), Int.toNat_natCast]
    rw [loop, ha]
    have hset : l.set b (g l) = l.take b ++ g l :: l.drop (b + 1) := List.set_eq_take_append_cons_drop.trans (if_pos (by omega))
    by_cases h1 : b + 1 = e
    · subst h1
      have hge : (b : Int) + 1 ≥ ((b + 1 : Nat) : Int) := by omega
      simp only [if_pos hge]
      have e1 : b + 1 - b = 1 := by omega
      rw [e1, hset]
      simp
    · have hlt : ¬ ((b : Int) + 1 ≥ (e : Int)) := by omega
      simp only [if_neg hlt]
      have := ih (l.set b (g l)) (b + 1) e (by omega) (by simpa using he) (fun g' h' => hg g' (List.mem_cons_of_mem _ h'))
      rw [Int.natCast_add] at this
      rw [show ((1 : Nat) : Int) = 1 from rfl] at this
      rw [this]
      obtain ⟨k, hk⟩ : ∃ k, e - b = k + 1 := ⟨e - b - 1, by omega⟩
      have hk' : e - (b + 1) = k := by omega
      rw [hk, hk']
      have hm : b + min (g :: gs).length (k + 1) = b + 1 + min gs.length k := by simp only [List.length_cons]; omega
      rw [hm]
      have hmap : (gs.take k).map (· (l.set b (g l))) = (gs.take k).map (· l) :=
        List.map_congr_left fun g' h' => hg g' (List.mem_cons_of_mem _ (List.mem_of_mem_take h')) _ _
      rw [hmap, List.take_succ_cons, List.map_cons, List.drop_succ_cons]
      have ht : (l.set b (g l)).take (b + 1) = l.take b ++ [g l] := by
        rw [hset, List.take_append]
        have hlen : (l.take b).length = b := by rw [List.length_take]; omega
        rw [hlen, List.take_of_length_le (by omega), show b + 1 - b = 1 by omega]
        simp
      have hd : (l.set b (g l)).drop (b + 1 + min gs.length k) = l.drop (b + 1 + min gs.length k) := by
        rw [List.drop_set_of_lt (by omega)]
      rw [ht, hd]
      simp

theorem C90_insert3_partial (l : List V) (b e : Option Int) (s : Src V) (hl : l.length < 2 ^ 32) (hs : Separate s) :
    insert3 l b e s = some (replaced l ((b.map (place · l.length)).getD 0) ((e.map (place · l.length)).getD l.length) (elems l s)) := by
  cases s with
  | array xs => exact congrArg some (insertArray_spec l b e xs hl)
  | iter gs =>
    have hB : (b.map (place · l.length)).getD 0 = place (b.getD 0) l.length := by
      cases b with
      | none => simp [place]; omega
      | some b => rfl
    have hE : (e.map (place · l.length)).getD l.length = place (e.getD l.length) l.length := by
      cases e with
      | none =>
        show l.length = place (l.length : Int) l.length
        unfold place
        rw [if_neg (by omega)]
        omega
      | some e => rfl
    rw [hB, hE]
    show insertFrom l b e gs = _
    unfold insertFrom
    simp only []
    generalize b.getD 0 = b0
    generalize e.getD (l.length : Int) = e0
    generalize hb1 : (if (if b0 < 0 then b0 + (l.length : Int) else b0) < 0 then 0 else (if b0 < 0 then b0 + (l.length : Int) else b0)) = b1
    generalize he1 : (if (if e0 < 0 then e0 + (l.length : Int) else e0) > (l.length : Int) then (l.length : Int) else (if e0 < 0 then e0 + (l.length : Int) else e0)) = e1
    have kb : 0 ≤ b1 ∧ (place b0 l.length : Int) = min b1 l.length := by
      unfold place
      by_cases h : b0 < 0 <;> simp only [h, if_true, if_false] at hb1 ⊢ <;> (try split at hb1) <;> omega
    have ke : e1 ≤ l.length ∧ (place e0 l.length : Int) = max 0 e1 := by
      unfold place
      by_cases h : e0 < 0 <;> simp only [h, if_true, if_false] at he1 ⊢ <;> (try split at he1) <;> omega
    generalize place b0 l.length = B at *
    generalize place e0 l.length = E at *
    by_cases hlt : b1 < e1
    · have f1 : (if e1 < b1 then b1 else e1) = ((E : Nat) : Int) := by rw [if_neg (by omega)]; omega
      have f2 : b1 = ((B : Nat) : Int) := by omega
      have f3 : B < E := by omega
      have f4 : E ≤ l.length := by omega
      rw [f1, f2, if_pos (by omega), loop_spec gs l B E f3 f4 hs]
      simp only []
      have hm : (gs.drop (E - B)).map (· (l.take B ++ (gs.take (E - B)).map (· l) ++ l.drop (B + min gs.length (E - B)))) = (gs.drop (E - B)).map (· l) :=
        List.map_congr_left fun g h => hs g (List.mem_of_mem_drop h) _ _
      rw [hm]
      have hk : (l.take B ++ (gs.take (E - B)).map (· l)).length = B + min gs.length (E - B) := by
        simp only [List.length_append, List.length_take, List.length_map]
        omega
      have hlen : (l.take B ++ (gs.take (E - B)).map (· l) ++ l.drop (B + min gs.length (E - B))).length = l.length := by
        rw [List.length_append, hk, List.length_drop]
        omega
      rw [insertArray_spec _ _ _ _ (by omega), hlen]
      simp only [Option.map_some, Option.getD_some]
      have p1 : place ((B + min gs.length (E - B) : Nat) : Int) l.length = B + min gs.length (E - B) := by
        unfold place; rw [if_neg (by omega)]; omega
      have p2 : place (E : Int) l.length = E := by unfold place; rw [if_neg (by omega)]; omega
      rw [p1, p2]
      unfold replaced
      congr 1
      have m1 : max (B + min gs.length (E - B)) E = E := by omega
      have m2 : max B E = E := by omega
      rw [m1, m2]
      rw [List.take_left' hk]
      have hd : (l.take B ++ (gs.take (E - B)).map (· l) ++ l.drop (B + min gs.length (E - B))).drop E = l.drop E := by
        rw [List.drop_append, hk, List.drop_of_length_le (by omega), List.drop_drop, List.nil_append]
        congr 1
        omega
      rw [hd]
      have hx : elems l (.iter gs) = (gs.take (E - B)).map (· l) ++ (gs.drop (E - B)).map (· l) := by
        rw [← List.map_append, List.take_append_drop]; rfl
      rw [hx]
      simp
    · have f1 : (if e1 < b1 then b1 else e1) = b1 := by split <;> omega
      rw [f1, if_neg (by omega), insertArray_spec _ _ _ _ hl]
      simp only [Option.map_some, Option.getD_some]
      have p1 : place b1 l.length = B := by
        unfold place; rw [if_neg (by omega)]; omega
      rw [p1]
      unfold replaced
      have m1 : max B B = max B E ∨ l.length ≤ B := by omega
      congr 2
      obtain h | h := m1
      · rw [h]
      · rw [List.drop_of_length_le (by omega), List.drop_of_length_le (by omega)]

theorem C90_insert2_partial (l : List V) (pos : Option Int) (s : Src V) (hl : l.length < 2 ^ 32) (hs : Separate s) :
    insert2 l pos s = some (l.take ((pos.map (place · l.length)).getD l.length) ++ elems l s ++ l.drop ((pos.map (place · l.length)).getD l.length)) := by
  unfold insert2
  cases pos with
  | none =>
    have := C90_insert3_partial l (some l.length) none s hl hs
    rw [if_pos rfl]
    show insert3 l (some l.length) none s = _
    rw [this]
    have p : place (l.length : Int) l.length = l.length := by unfold place; rw [if_neg (by omega)]; omega
    simp [replaced, p]
  | some p =>
    rw [if_neg (by simp)]
    show insert3 l (some p) (some p) s = _
    rw [C90_insert3_partial l (some p) (some p) s hl hs]
    simp [replaced]

/-- An iterator over the array itself: elements which have been replaced already are inserted, `[1, 2, 3].insert(1, 2, iterator)` gives `[1, 1, 1, 3, 3]`. -/
theorem C90_self_violated : ¬ C90_full Nat := fun h => by
  have := h [1, 2, 3] (some 1) (some 2) (.iter [fun l => l.getD 0 0, fun l => l.getD 1 0, fun l => l.getD 2 0]) (by decide)
  revert this
  decide

-- elements replaced one by one and the rest inserted; fewer elements than the range has; negative positions
example : insert3 [1, 2, 3, 4] (some 1) (some 2) (.iter [fun _ => 7, fun _ => 8]) = some [1, 7, 8, 3, 4] := by decide
example : insert3 [1, 2, 3, 4] (some (-3)) (some 9) (.iter [fun _ => 7]) = some [1, 7] := by decide
example : insert2 [1, 2, 3] (some (-1)) (.iter [fun _ => 7]) = some [1, 2, 7, 3] ∧ insert2 [1, 2, 3] none (.iter [fun _ => 7]) = some [1, 2, 3, 7] := by decide
example : insert3 [1, 2, 3] none none (.array [7]) = some [7] ∧ insert3 [1, 2, 3] (some 2) (some 1) (.array [7]) = some [1, 2, 7, 3] := by decide

end Verif.InsertIter
