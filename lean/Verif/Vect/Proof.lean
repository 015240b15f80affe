import Verif.Vect.Model

/-! Vectors own their blocks. -/
namespace Verif.Vect

/-- A vector by itself; `l` is the memory where its buffer is. -/
structure Has (h : Heap) (v : Vec) (l : List Cell) : Prop where
  buf : buffer h v = .ok l
  len : l.length = v.capacity
  size : v.size ≤ v.capacity
  low : 16 ≤ v.capacity
  high : v.capacity < limit
  place : v.capacity ≤ 16 ↔ v.buf = none
  small : v.small.length = 16

/-- What a call does to the heap, besides what is in the buffer. -/
structure Frame (h : Heap) (v : Vec) (h' : Heap) (v' : Vec) : Prop where
  other : ∀ i, v.buf ≠ some i → v'.buf ≠ some i → h'.blocks i = h.blocks i
  fresh : ∀ i, v'.buf = some i → v.buf ≠ some i → h.blocks i = none
  freed : ∀ i, v.buf = some i → v'.buf ≠ some i → h'.blocks i = none
  next : (∀ i, h.next ≤ i → h.blocks i = none) → (∀ i, h'.next ≤ i → h'.blocks i = none)

variable {h h' : Heap} {v v' : Vec} {l : List Cell}

theorem Frame.refl (v v' : Vec) (e : v'.buf = v.buf) : Frame h v h v' :=
  ⟨fun _ _ _ => rfl, fun _ a b => absurd (e ▸ a) b, fun _ a b => absurd (e.symm ▸ a) b, fun a => a⟩

theorem reserve_ok (H : Has h v l) (hn : ∀ i, h.next ≤ i → h.blocks i = none) (cap : Nat) (m : Bool) :
    ∃ b h' v' l', reserve h v cap m = .ok (b, h', v') ∧ Has h' v' l' ∧ v'.size = v.size ∧ l'.take v.size = l.take v.size ∧ Frame h v h' v' ∧
      (b = true → cap ≤ v'.capacity) ∧ (b = false → h' = h ∧ v' = v) ∧ (m = true → cap < limit → b = true) := by
  have hsz := H.size
  have hlen := H.len
  have hlow := H.low
  unfold reserve
  by_cases h1 : cap > v.capacity
  · rw [if_pos h1]
    by_cases h2 : v.capacity ≤ 16
    · rw [if_pos h2]
      have hb := H.place.mp h2
      by_cases h3 : m = true ∧ cap < limit
      · rw [if_pos h3]
        have key : ∀ cs : List Cell, cs.length = v.size → cs.take v.size = l.take v.size →
            Has (alloc h cap cs) { v with buf := some h.next, capacity := cap } (cs ++ List.replicate (cap - cs.length) none) ∧
            (cs ++ List.replicate (cap - cs.length) none).take v.size = l.take v.size ∧
            Frame h v (alloc h cap cs) { v with buf := some h.next, capacity := cap } := by
          intro cs c1 c2
          refine ⟨⟨by simp [buffer, alloc], by simp; omega, by show v.size ≤ cap; omega, by show 16 ≤ cap; omega, h3.2,
            ⟨fun x => absurd (show cap ≤ 16 from x) (by omega), fun x => by simp at x⟩, H.small⟩, ?_, ?_⟩
          · rw [List.take_append_of_le_length (by omega)]; exact c2
          · refine ⟨?_, ?_, ?_, ?_⟩
            · intro i _ hi
              have : i ≠ h.next := fun e => hi (by rw [e])
              simp [alloc, this]
            · intro i hi _
              injection hi with hi
              exact hn i (by omega)
            · intro i hi; rw [hb] at hi; cases hi
            · intro _ i hi
              have hi : h.next + 1 ≤ i := hi
              have : i ≠ h.next := by omega
              simp only [alloc, this, if_false]
              exact hn i (by omega)
        by_cases h4 : v.size = 0
        · rw [if_neg (by omega)]
          obtain ⟨k1, k2, k3⟩ := key [] (by simp [h4]) (by simp [h4])
          exact ⟨true, _, _, _, rfl, k1, rfl, k2, k3, fun _ => Nat.le_refl _, by simp, fun _ _ => rfl⟩
        · rw [if_pos h4]
          have hr : read h v v.size = .ok (l.take v.size) := by
            simp only [read, H.buf]; rw [if_pos (by omega)]
          have hl : (l.take v.size).length = v.size := by rw [List.length_take]; omega
          simp only [hr]
          rw [if_pos (by omega)]
          obtain ⟨k1, k2, k3⟩ := key (l.take v.size) hl (by rw [List.take_take, Nat.min_self])
          exact ⟨true, _, _, _, rfl, k1, rfl, k2, k3, fun _ => Nat.le_refl _, by simp, fun _ _ => rfl⟩
      · rw [if_neg h3]
        exact ⟨false, h, v, l, rfl, H, rfl, rfl, Frame.refl v v rfl, by simp, fun _ => ⟨rfl, rfl⟩, fun a b => absurd ⟨a, b⟩ h3⟩
    · rw [if_neg h2]
      have hbuf := H.buf
      unfold buffer at hbuf
      cases hb : v.buf with
      | none => exact absurd (H.place.mpr hb) h2
      | some i =>
        rw [hb] at hbuf
        simp only at hbuf
        cases hbl : h.blocks i with
        | none => rw [hbl] at hbuf; cases hbuf
        | some l0 =>
          rw [hbl] at hbuf
          injection hbuf with hbuf
          subst hbuf
          simp only [hbl]
          have hin : i < h.next := by
            rcases Nat.lt_or_ge i h.next with x | x
            · exact x
            · rw [hn i x] at hbl; cases hbl
          by_cases h3 : m = true ∧ cap < limit
          · rw [if_pos h3]
            have htk : l0.take cap = l0 := List.take_of_length_le (by omega)
            rw [htk]
            refine ⟨true, _, _, l0 ++ List.replicate (cap - l0.length) none, rfl, ⟨by simp [buffer, alloc, Heap.set], by simp; omega, by show v.size ≤ cap; omega, by show 16 ≤ cap; omega, h3.2,
              ⟨fun x => absurd (show cap ≤ 16 from x) (by omega), fun x => by simp at x⟩, H.small⟩, rfl, ?_, ⟨?_, ?_, ?_, ?_⟩, fun _ => Nat.le_refl _, by simp, fun _ _ => rfl⟩
            · rw [List.take_append_of_le_length (by omega)]
            · intro j hj hj'
              have a1 : j ≠ h.next := fun e => hj' (by rw [e])
              have a2 : j ≠ i := fun e => hj (by rw [e]; exact hb)
              simp [alloc, Heap.set, a1, a2]
            · intro j hj _
              injection hj with hj
              have hj : h.next = j := hj
              exact hn j (by omega)
            · intro j hj _
              rw [hb] at hj
              injection hj with hj
              subst hj
              have : i ≠ h.next := by omega
              simp [alloc, Heap.set, this]
            · intro _ j hj
              have hj : h.next + 1 ≤ j := hj
              have a1 : j ≠ h.next := by omega
              have a2 : j ≠ i := by omega
              simp only [alloc, Heap.set, a1, a2, if_false]
              exact hn j (by omega)
          · rw [if_neg h3]
            exact ⟨false, h, v, l0, rfl, H, rfl, rfl, Frame.refl v v rfl, by simp, fun _ => ⟨rfl, rfl⟩, fun a b => absurd ⟨a, b⟩ h3⟩
  · rw [if_neg h1]
    exact ⟨true, h, v, l, rfl, H, rfl, rfl, Frame.refl v v rfl, fun _ => by omega, by simp, fun _ _ => rfl⟩

theorem resize_ok (H : Has h v l) (hn : ∀ i, h.next ≤ i → h.blocks i = none) (size : Nat) (m : Bool) :
    ∃ b h' v' l', resize h v size m = .ok (b, h', v') ∧ Has h' v' l' ∧ l'.take v.size = l.take v.size ∧ Frame h v h' v' ∧
      (b = true → v'.size = size) ∧ (b = false → h' = h ∧ v' = v) ∧ (m = true → size + 262144 < limit → b = true) := by
  have hlow := H.low
  have hhigh := H.high
  unfold resize
  by_cases h1 : size > v.capacity
  · rw [if_pos h1, if_neg (by omega)]
    have hadd : add64 v.capacity (max (min v.capacity 262144) 64) = v.capacity + max (min v.capacity 262144) 64 := by
      unfold add64; unfold limit at hhigh; omega
    simp only [hadd]
    generalize hcap : (if v.capacity + max (min v.capacity 262144) 64 > size then v.capacity + max (min v.capacity 262144) 64 else size) = cap
    have hc : size ≤ cap := by rw [← hcap]; split <;> omega
    have hc2 : cap ≤ size + 262144 := by rw [← hcap]; split <;> omega
    obtain ⟨b, h', v', l', r, H', s1, s2, F, s3, s4, s5⟩ := reserve_ok H hn cap m
    rw [r]
    cases b with
    | true =>
      refine ⟨true, h', { v' with size := size }, l', rfl, ⟨H'.buf, H'.len, ?_, H'.low, H'.high, H'.place, H'.small⟩, s2, ⟨F.other, F.fresh, F.freed, F.next⟩, fun _ => rfl, by simp, fun _ _ => rfl⟩
      have := s3 rfl
      show size ≤ v'.capacity
      omega
    | false =>
      exact ⟨false, h', v', l', rfl, H', s2, F, by simp, s4, fun a b => s5 a (by omega)⟩
  · rw [if_neg h1]
    exact ⟨true, h, { v with size := size }, l, rfl, ⟨H.buf, H.len, by show size ≤ v.capacity; omega, H.low, H.high, H.place, H.small⟩, rfl, Frame.refl _ _ rfl,
      fun _ => rfl, by simp, fun _ _ => rfl⟩

theorem write_ok (H : Has h v l) {pos : Nat} {cs : List Cell} (hp : pos + cs.length ≤ l.length) :
    ∃ h' v', write h v pos cs = .ok (h', v') ∧ Has h' v' (l.take pos ++ cs ++ l.drop (pos + cs.length)) ∧ v'.size = v.size ∧ Frame h v h' v' := by
  have hlen : (l.take pos ++ cs ++ l.drop (pos + cs.length)).length = l.length := by simp; omega
  have hhl := H.len
  unfold write
  rw [H.buf]
  simp only [if_pos hp]
  cases hb : v.buf with
  | none =>
    refine ⟨h, { v with buf := none, small := l.take pos ++ cs ++ l.drop (pos + cs.length) }, by simp only [hb], ⟨rfl, hlen.trans H.len, H.size, H.low, H.high,
      ⟨fun _ => rfl, fun _ => H.place.mpr hb⟩, ?_⟩, rfl, Frame.refl _ _ hb.symm⟩
    have : v.capacity ≤ 16 := H.place.mpr hb
    have := H.low
    show (l.take pos ++ cs ++ l.drop (pos + cs.length)).length = 16
    omega
  | some i =>
    have hbuf := H.buf
    simp only [buffer, hb] at hbuf
    cases hbl : h.blocks i with
    | none => rw [hbl] at hbuf; cases hbuf
    | some l0 =>
      refine ⟨_, v, rfl, ⟨by simp [buffer, hb, Heap.set], hlen.trans H.len, H.size, H.low, H.high, H.place, H.small⟩, rfl, ⟨?_, fun _ a b => absurd a b, fun _ a b => absurd a b, ?_⟩⟩
      · intro j hj _
        have : j ≠ i := fun e => hj (by rw [e, hb])
        simp [Heap.set, this]
      · intro hn j hj
        have : j ≠ i := by
          intro e
          rw [e] at hj
          rw [hn i hj] at hbl; cases hbl
        simp only [Heap.set, this, if_false]
        exact hn j hj

theorem destroy_ok (H : Has h v l) :
    ∃ h' v' l', destroy h v = .ok (h', v') ∧ Has h' v' l' ∧ v'.buf = none ∧ Frame h v h' v' ∧
      (if v.capacity > 16 then v'.size = 0 else v'.size = v.size ∧ l' = l) := by
  unfold destroy
  by_cases h1 : v.capacity > 16
  · rw [if_pos h1]
    have hbuf := H.buf
    cases hb : v.buf with
    | none => have := H.place.mpr hb; omega
    | some i =>
      simp only [buffer, hb] at hbuf
      cases hbl : h.blocks i with
      | none => rw [hbl] at hbuf; cases hbuf
      | some l0 =>
        refine ⟨h.set i none, init v, v.small, by simp only [hbl], ⟨rfl, H.small, Nat.zero_le _, Nat.le_refl _, by show 16 < limit; decide, ⟨fun _ => rfl, fun _ => Nat.le_refl _⟩, H.small⟩,
          rfl, ⟨?_, fun _ a _ => absurd a (by simp [init]), ?_, ?_⟩, by rw [if_pos h1]; rfl⟩
        · intro j hj _
          have : j ≠ i := fun e => hj (by rw [e, hb])
          simp [Heap.set, this]
        · intro j hj _
          rw [hb] at hj
          injection hj with hj
          simp [Heap.set, hj]
        · intro hn j hj
          simp only [Heap.set]
          split
          · rfl
          · exact hn j hj
  · rw [if_neg h1]
    exact ⟨h, v, l, rfl, H, H.place.mp (by omega), Frame.refl v v rfl, by rw [if_neg h1]; exact ⟨rfl, rfl⟩⟩

/-! Many vectors. -/

/-- The bytes of a vector. -/
def bytes (w : World) (k : Nat) : List Cell :=
  match buffer w.heap (w.vecs k) with
  | .ok l => l.take (w.vecs k).size
  | .error _ => []

structure Inv (w : World) : Prop where
  has : ∀ k, ∃ l, Has w.heap (w.vecs k) l
  next : ∀ i, w.heap.next ≤ i → w.heap.blocks i = none
  own : ∀ i, w.heap.blocks i ≠ none → ∃ k, (w.vecs k).buf = some i
  one : ∀ j k i, (w.vecs j).buf = some i → (w.vecs k).buf = some i → j = k

variable {w : World} {k : Nat}

theorem Has.bytes (H : Has w.heap (w.vecs k) l) : Vect.bytes w k = l.take (w.vecs k).size := by
  unfold Vect.bytes; rw [H.buf]

theorem Has.block (H : Has h v l) {i : Nat} (hb : v.buf = some i) : h.blocks i = some l := by
  have := H.buf
  simp only [buffer, hb] at this
  cases hbl : h.blocks i with
  | none => rw [hbl] at this; cases this
  | some l0 => rw [hbl] at this; injection this with this; rw [this]

theorem put_ok (I : Inv w) (H : Has h' v' l) (F : Frame w.heap (w.vecs k) h' v') :
    Inv (w.put k h' v') ∧ Vect.bytes (w.put k h' v') k = l.take v'.size ∧ ∀ j, j ≠ k → Vect.bytes (w.put k h' v') j = Vect.bytes w j := by
  have hk : (w.put k h' v').vecs k = v' := by simp [World.put]
  have hj : ∀ j, j ≠ k → (w.put k h' v').vecs j = w.vecs j := by intro j hj; simp [World.put, hj]
  have hh : (w.put k h' v').heap = h' := rfl
  have apart : ∀ j i, j ≠ k → (w.vecs j).buf = some i → (w.vecs k).buf ≠ some i ∧ v'.buf ≠ some i := by
    intro j i hjk hb
    have h1 : (w.vecs k).buf ≠ some i := fun h0 => hjk (I.one j k i hb h0)
    refine ⟨h1, fun h2 => ?_⟩
    obtain ⟨lj, Hj⟩ := I.has j
    have := F.fresh i h2 h1
    rw [Hj.block hb] at this
    cases this
  have hbuf : ∀ j, j ≠ k → buffer h' (w.vecs j) = buffer w.heap (w.vecs j) := by
    intro j hjk
    unfold buffer
    cases hb : (w.vecs j).buf with
    | none => rfl
    | some i =>
      obtain ⟨a1, a2⟩ := apart j i hjk hb
      simp only [F.other i a1 a2]
  refine ⟨⟨?_, ?_, ?_, ?_⟩, ?_, ?_⟩
  · intro j
    by_cases e : j = k
    · subst e; exact ⟨l, by rw [hk]; exact H⟩
    · obtain ⟨lj, Hj⟩ := I.has j
      exact ⟨lj, by rw [hj j e]; exact ⟨by rw [hh, hbuf j e]; exact Hj.buf, Hj.len, Hj.size, Hj.low, Hj.high, Hj.place, Hj.small⟩⟩
  · exact F.next I.next
  · intro i hi
    rw [hh] at hi
    by_cases a1 : v'.buf = some i
    · exact ⟨k, by rw [hk]; exact a1⟩
    · by_cases a2 : (w.vecs k).buf = some i
      · exact absurd (F.freed i a2 a1) hi
      · rw [F.other i a2 a1] at hi
        obtain ⟨j, hb⟩ := I.own i hi
        have : j ≠ k := fun e => a2 (e ▸ hb)
        exact ⟨j, by rw [hj j this]; exact hb⟩
  · intro x y i hx hy
    by_cases ex : x = k
    · by_cases ey : y = k
      · rw [ex, ey]
      · subst ex
        rw [hk] at hx
        rw [hj y ey] at hy
        exact absurd hx (apart y i ey hy).2
    · rw [hj x ex] at hx
      by_cases ey : y = k
      · subst ey
        rw [hk] at hy
        exact absurd hy (apart x i ex hx).2
      · rw [hj y ey] at hy
        exact I.one x y i hx hy
  · have : Has (w.put k h' v').heap ((w.put k h' v').vecs k) l := by rw [hk]; exact H
    rw [this.bytes, hk]
  · intro j e
    unfold Vect.bytes
    rw [hj j e, hh, hbuf j e]

/-! What the calls mean. -/

/-- What users of vectors may do. -/
def Legal (c : Nat → List Cell) (o : Op) : Prop :=
  match o with
  | .concat d s _ => d ≠ s
  | .set k i _ => i < (c k).length
  | _ => True

/-- `b`: the call succeeds; `c` and `c'` are the contents before and after. -/
def Does (o : Op) (b : Bool) (c c' : Nat → List Cell) : Prop :=
  match o with
  | .destroy k => b = true ∧ (c' k = [] ∨ c' k = c k) ∧ ∀ j, j ≠ k → c' j = c j
  | .reserve _ cap m => c' = c ∧ (m = true → cap < 9223372036854775808 → b = true)
  | .resize k size m =>
    (if b then (c' k).length = size ∧ (∀ i, i < (c k).length → i < size → (c' k)[i]? = (c k)[i]?) ∧ ∀ j, j ≠ k → c' j = c j else c' = c) ∧
      (m = true → size + 262144 < 9223372036854775808 → b = true)
  | .concat d s m =>
    (if b then c' d = c d ++ c s ∧ ∀ j, j ≠ d → c' j = c j else c' = c) ∧
      (m = true → (c d).length + (c s).length + 262144 < 9223372036854775808 → b = true)
  | .set k i x => b = true ∧ c' k = (c k).set i (some x) ∧ ∀ j, j ≠ k → c' j = c j

theorem take_get {a b : List Cell} {n : Nat} (h : a.take n = b.take n) {i : Nat} (hi : i < n) : a[i]? = b[i]? := by
  have := congrArg (fun x => x[i]?) h
  simpa [List.getElem?_take, hi] using this

theorem same_put (I : Inv w) : Vect.bytes (w.put k w.heap (w.vecs k)) = Vect.bytes w := by
  funext j
  have : (w.put k w.heap (w.vecs k)).vecs j = w.vecs j := by
    simp only [World.put]; split
    · rename_i e; rw [e]
    · rfl
  unfold Vect.bytes
  rw [this]; rfl

theorem step_ok (I : Inv w) {o : Op} (L : Legal (Vect.bytes w) o) :
    ∃ b w', step w o = .ok (b, w') ∧ Does o b (Vect.bytes w) (Vect.bytes w') ∧ Inv w' := by
  cases o with
  | destroy k =>
    obtain ⟨l, H⟩ := I.has k
    obtain ⟨h', v', l', r, H', hb, F, hs⟩ := destroy_ok H
    obtain ⟨I', e1, e2⟩ := put_ok I H' F
    refine ⟨true, w.put k h' v', by simp only [step, r], ⟨rfl, ?_, e2⟩, I'⟩
    rw [e1, H.bytes]
    split at hs
    · left; rw [hs]; rfl
    · right; rw [hs.1, hs.2]
  | reserve k cap m =>
    obtain ⟨l, H⟩ := I.has k
    obtain ⟨b, h', v', l', r, H', s1, s2, F, s3, s4, s5⟩ := reserve_ok H I.next cap m
    obtain ⟨I', e1, e2⟩ := put_ok I H' F
    refine ⟨b, w.put k h' v', by simp only [step, r], ⟨?_, s5⟩, I'⟩
    funext j
    by_cases e : j = k
    · subst e; rw [e1, s1, s2, H.bytes]
    · exact e2 j e
  | resize k size m =>
    obtain ⟨l, H⟩ := I.has k
    obtain ⟨b, h', v', l', r, H', s2, F, s3, s4, s5⟩ := resize_ok H I.next size m
    obtain ⟨I', e1, e2⟩ := put_ok I H' F
    refine ⟨b, w.put k h' v', by simp only [step, r], ⟨?_, s5⟩, I'⟩
    cases b with
    | true =>
      have h1 := s3 rfl
      have h2 := H'.size
      have h3 := H'.len
      have h4 := H.size
      have h5 := H.len
      rw [if_pos rfl]
      refine ⟨by rw [e1, List.length_take]; omega, ?_, e2⟩
      intro i hi hi'
      rw [H.bytes, List.length_take] at hi
      rw [e1, H.bytes, List.getElem?_take, List.getElem?_take, if_pos (by omega), if_pos (by omega)]
      exact take_get s2 (by omega)
    | false =>
      obtain ⟨rfl, rfl⟩ := s4 rfl
      rw [if_neg (by simp)]
      exact same_put I
  | concat d s m =>
    have hds : d ≠ s := L
    obtain ⟨l, H⟩ := I.has d
    obtain ⟨ls, Hs⟩ := I.has s
    have hd1 := H.size
    have hd2 := H.len
    have hs1 := Hs.size
    have hs2 := Hs.len
    have hd3 := H.high
    have hs3 := Hs.high
    have hbd : (Vect.bytes w d).length = (w.vecs d).size := by rw [H.bytes, List.length_take]; omega
    have hbs : (Vect.bytes w s).length = (w.vecs s).size := by rw [Hs.bytes, List.length_take]; omega
    simp only [step, concat]
    by_cases h0 : (w.vecs s).size = 0
    · rw [if_neg (by omega)]
      have : Vect.bytes w s = [] := List.length_eq_zero_iff.mp (by omega)
      exact ⟨true, w, rfl, ⟨by rw [if_pos rfl, this, List.append_nil]; exact ⟨rfl, fun _ _ => rfl⟩, fun _ _ => rfl⟩, I⟩
    · rw [if_pos h0]
      have hadd : add64 (w.vecs d).size (w.vecs s).size = (w.vecs d).size + (w.vecs s).size := by
        unfold add64; unfold limit at hd3 hs3; omega
      obtain ⟨b, h', v', l', r, H', s2, F, s3, s4, s5⟩ := resize_ok H I.next ((w.vecs d).size + (w.vecs s).size) m
      rw [hadd, r]
      obtain ⟨I', e1, e2⟩ := put_ok I H' F
      have s5' : m = true → (Vect.bytes w d).length + (Vect.bytes w s).length + 262144 < 9223372036854775808 → b = true := by
        rw [hbd, hbs]; exact s5
      cases b with
      | false =>
        obtain ⟨rfl, rfl⟩ := s4 rfl
        refine ⟨false, _, rfl, ⟨?_, s5'⟩, I'⟩
        rw [if_neg (by simp)]
        exact same_put I
      | true =>
        have hsz := s3 rfl
        have hz1 := H'.size
        have hz2 := H'.len
        simp only
        generalize hw1 : w.put d h' v' = w1 at *
        have hv1 : w1.vecs d = v' := by rw [← hw1]; simp [World.put]
        have hh1 : w1.heap = h' := by rw [← hw1]; rfl
        have hvs : w1.vecs s = w.vecs s := by rw [← hw1]; simp [World.put, Ne.symm hds]
        obtain ⟨ls1, Hs1⟩ := I'.has s
        have es := e2 s (Ne.symm hds)
        have hl1 := Hs1.len
        have hrd : read w1.heap (w1.vecs s) (w1.vecs s).size = .ok (Vect.bytes w s) := by
          have q := Hs1.size
          simp only [read, Hs1.buf]
          rw [if_pos (by omega), ← Hs1.bytes, es]
        rw [hrd]
        simp only
        have H1 : Has w1.heap (w1.vecs d) l' := by rw [hv1, hh1]; exact H'
        obtain ⟨h2, v2, r2, H2, z2, F2⟩ := write_ok H1 (pos := (w.vecs d).size) (cs := Vect.bytes w s) (by omega)
        rw [r2]
        simp only
        obtain ⟨I2, f1, f2⟩ := put_ok I' H2 F2
        refine ⟨true, _, rfl, ⟨?_, s5'⟩, I2⟩
        rw [if_pos rfl]
        refine ⟨?_, fun j hj => (f2 j hj).trans (e2 j hj)⟩
        rw [f1, z2, hv1, hsz, s2, H.bytes]
        rw [List.take_append_of_le_length (by simp only [List.length_append, List.length_take]; omega), List.take_of_length_le (by simp only [List.length_append, List.length_take]; omega)]
  | set k i x =>
    obtain ⟨l, H⟩ := I.has k
    have h1 := H.size
    have h2 := H.len
    have hi : i < (w.vecs k).size := by
      have : i < (Vect.bytes w k).length := L
      rw [H.bytes, List.length_take] at this
      omega
    obtain ⟨h', v', r, H', z, F⟩ := write_ok H (pos := i) (cs := [some x]) (by simp; omega)
    obtain ⟨I', e1, e2⟩ := put_ok I H' F
    refine ⟨true, w.put k h' v', by simp only [step, r], ⟨rfl, ?_, e2⟩, I'⟩
    rw [e1, z, H.bytes]
    have : l.take i ++ [some x] ++ l.drop (i + [some x].length) = l.set i (some x) := by
      rw [List.set_eq_take_append_cons_drop, if_pos (by omega)]; simp
    rw [this, List.take_set]

theorem start_inv : Inv start :=
  ⟨fun _ => ⟨List.replicate 16 none, ⟨rfl, by simp [start, init], Nat.zero_le _, Nat.le_refl _, by show 16 < limit; decide, ⟨fun _ => rfl, fun _ => Nat.le_refl _⟩, by simp [start, init]⟩⟩,
    fun _ _ => rfl, fun _ h => absurd rfl h, fun _ _ _ h => by cases h⟩

/-- The states of a program which uses vectors. -/
inductive Reach : World → Prop
  | start : Reach start
  | step {w w' : World} {o : Op} {b : Bool} (h : Reach w) (l : Legal (Vect.bytes w) o) (r : step w o = .ok (b, w')) : Reach w'

theorem Reach.inv (h : Reach w) : Inv w := by
  induction h with
  | start => exact start_inv
  | step _ l r ih =>
    obtain ⟨b, w', r', _, I⟩ := step_ok ih l
    rw [r] at r'
    injection r' with r'
    injection r' with _ r'
    rw [r']; exact I

end Verif.Vect
