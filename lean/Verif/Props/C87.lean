import Verif.Vect.Proof

/-!
C87: vectors of bytes (core/kos_memory.c:131-212).

Full statement: whatever is done with any number of vectors, nothing is accessed outside of a buffer or after it has been freed, contents are what the
calls say, a call which fails changes nothing, and each block of memory is owned by exactly one vector.

What is proved: this holds if no vector is appended to itself.  `KOS_vector_destroy` leaves a vector empty only if its memory was on the heap.
-/
namespace Verif.Vect

/-- One call, in any state which a program can reach. -/
theorem C87_vectors_partial {w : World} (h : Reach w) {o : Op} (l : Legal (bytes w) o) :
    ∃ b w', step w o = .ok (b, w') ∧ Does o b (bytes w) (bytes w') ∧ Reach w' := by
  obtain ⟨b, w', r, d, _⟩ := step_ok h.inv l
  exact ⟨b, w', r, d, h.step l r⟩

/-- The blocks which have not been freed are those of vectors, and no two vectors have the same. -/
theorem C87_owned {w : World} (h : Reach w) :
    (∀ i, w.heap.blocks i ≠ none ↔ ∃ k, (w.vecs k).buf = some i) ∧ ∀ j k i, (w.vecs j).buf = some i → (w.vecs k).buf = some i → j = k := by
  refine ⟨fun i => ⟨h.inv.own i, ?_⟩, h.inv.one⟩
  rintro ⟨k, hb⟩
  obtain ⟨l, H⟩ := h.inv.has k
  rw [H.block hb]
  simp

/-- A vector which is destroyed has no block. -/
theorem C87_destroyed {w w' : World} (h : Reach w) {k : Nat} {b : Bool} (r : step w (.destroy k) = .ok (b, w')) :
    (w'.vecs k).buf = none ∧ ∀ j, j ≠ k → w'.vecs j = w.vecs j := by
  obtain ⟨l, H⟩ := h.inv.has k
  obtain ⟨h', v', l', r', _, hb, _, _⟩ := destroy_ok H
  simp only [step, r'] at r
  injection r with r
  injection r with _ r
  subst r
  exact ⟨by simp [World.put, hb], fun j hj => by simp [World.put, hj]⟩

/-- When no vector has a block, nothing is left. -/
theorem C87_no_leak {w : World} (h : Reach w) (hd : ∀ k, (w.vecs k).buf = none) : ∀ i, w.heap.blocks i = none := by
  intro i
  cases hb : w.heap.blocks i with
  | none => rfl
  | some l =>
    obtain ⟨k, hk⟩ := h.inv.own i (by rw [hb]; simp)
    rw [hd k] at hk
    cases hk

/-- The bytes of a vector, after these calls. -/
def after (os : List Op) (k : Nat) : Option (List Cell) :=
  match steps start os with
  | .ok w => some (bytes w k)
  | .error _ => none

def failed (os : List Op) : Bool :=
  match steps start os with
  | .ok _ => false
  | .error x => x == .ub

/-- A vector of 60 bytes which is appended to itself: its size has changed when it is copied, and 20 bytes are written after the end of the block. -/
theorem C87_self_violated : failed [.resize 0 60 true, .concat 0 0 true] = true := by decide +kernel

/-- A vector of 2 bytes still has them after it has been destroyed; one of 20 bytes is empty. -/
theorem C87_destroy_violated : after [.resize 0 2 true, .set 0 0 7, .set 0 1 8, .destroy 0] 0 = some [some 7, some 8] ∧
    after [.resize 0 20 true, .set 0 0 7, .destroy 0] 0 = some [] := by decide +kernel

/-- Appending a vector of 3 bytes to one of 14, which moves it to the heap. -/
example : (after [.resize 0 14 true, .set 0 13 5, .resize 1 3 true, .set 1 0 1, .set 1 1 2, .set 1 2 3, .concat 0 1 true] 0).map (·.drop 13) =
    some [some 5, some 1, some 2, some 3] := by decide +kernel

/-- Without memory, it keeps what it had. -/
example : (after [.resize 0 14 true, .set 0 13 5, .resize 1 3 true, .concat 0 1 false] 0).map (·.drop 13) = some [some 5] := by decide +kernel

example : Reach start := .start

end Verif.Vect
