import Verif.Str.Ops

/-!
C25: the hash of a string depends only on its characters.
-/
namespace Verif.Props

open Verif.Str

/-- Two strings with the same characters have the same hash, whatever their representation, and whether or not the hash has
been computed before.  (Builds without assertions.) -/
theorem C25_hash (s t : S) (cs : List Nat) (hs : Rep s cs) (ht : Rep t cs) :
    ∃ h s' t', getHash false s = .ok (h, s') ∧ getHash false t = .ok (h, t') ∧ Rep s' cs ∧ Rep t' cs := by
  obtain ⟨s', e1, e2⟩ := getHash_spec false s cs hs (by simp)
  obtain ⟨t', e3, e4⟩ := getHash_spec false t cs ht (by simp)
  exact ⟨_, s', t', e1, e3, e2, e4⟩

/-- In builds with assertions this holds for strings whose hash is not zero. -/
theorem C25_hash_debug_partial (debug : Bool) (s t : S) (cs : List Nat) (hs : Rep s cs) (ht : Rep t cs) (h0 : hashOf cs ≠ 0) :
    ∃ h s' t', getHash debug s = .ok (h, s') ∧ getHash debug t = .ok (h, t') ∧ Rep s' cs ∧ Rep t' cs := by
  obtain ⟨s', e1, e2⟩ := getHash_spec debug s cs hs (fun _ => h0)
  obtain ⟨t', e3, e4⟩ := getHash_spec debug t cs ht (fun _ => h0)
  exact ⟨_, s', t', e1, e3, e2, e4⟩

/-- The full claim for builds with assertions: no string makes the hash fail. -/
def C25_hash_debug_full : Prop := ∀ (s : S) (cs : List Nat), Rep s cs → ∃ h s', getHash true s = .ok (h, s')

/-- The code violates it: the string made of the one character U+2B5A5 has hash 0 and fails `assert(hash)`,
core/kos_string.c:555. -/
theorem C25_assert_violated : ¬ C25_hash_debug_full := by
  intro h
  have hr : Rep ⟨.w32, false, .inObj, 1, 0, 0, [0xA5, 0xB5, 2, 0]⟩ [0x2B5A5] :=
    ⟨rfl, by simp, ⟨[], rfl⟩, by simp [Width.bytes], by simp, rfl, Or.inl rfl⟩
  obtain ⟨k, s', e⟩ := h _ _ hr
  have : getHash true ⟨.w32, false, .inObj, 1, 0, 0, [0xA5, 0xB5, 2, 0]⟩ = .bad := by decide +kernel
  rw [this] at e
  exact absurd e (by simp)

/-- "aé" with 8, 16 and 32 bits per character; in the last case the hash is already there. -/
example :
    getHash false ⟨.w8, false, .inObj, 2, 0, 0, [97, 233]⟩ = .ok (5861037, ⟨.w8, false, .inObj, 2, 5861037, 0, [97, 233]⟩) ∧
    getHash false ⟨.w16, false, .ref, 2, 0, 2, [97, 0, 233, 0, 1]⟩ = .ok (5861037, ⟨.w16, false, .ref, 2, 5861037, 2, [97, 0, 233, 0, 1]⟩) ∧
    getHash false ⟨.w32, false, .inObj, 2, 5861037, 0, [97, 0, 0, 0, 233, 0, 0, 0]⟩ =
      .ok (5861037, ⟨.w32, false, .inObj, 2, 5861037, 0, [97, 0, 0, 0, 233, 0, 0, 0]⟩) := by
  decide +kernel

end Verif.Props
