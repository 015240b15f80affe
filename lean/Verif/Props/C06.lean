import Verif.Utf8.Enc
/-
C06: the length scan of UTF-8 text and the decoders agree on length and on the largest code, so the decoders never
overrun the string which was sized by the scan.
-/
namespace Verif.Props
open Verif.Utf8

/-- The scan of any bytes stays within its input, with and without escapes, for any alignment and word size. -/
theorem C06_scan_in_bounds (esc : Bool) (w : Nat) (al : Nat → Bool) (bytes : List Nat) (hb : ∀ b ∈ bytes, b < 256) :
    getLen esc w al bytes ≠ .ub := by
  rw [getLen_eq esc w al bytes hb]
  exact slowLoop_safe esc _ _ _ _ (Nat.lt_succ_self _)

/-- The word-at-a-time fast path changes nothing: the result does not depend on word size or alignment. -/
theorem C06_fast_path_invisible (esc : Bool) (w w' : Nat) (al al' : Nat → Bool) (bytes : List Nat)
    (hb : ∀ b ∈ bytes, b < 256) : getLen esc w al bytes = getLen esc w' al' bytes := by
  rw [getLen_eq esc w al bytes hb, getLen_eq esc w' al' bytes hb]

/-- If the scan reports `n` and `m`, every decoder wide enough for `max m 0x7F` succeeds, never reads outside of the
input and never trips an assertion, and produces exactly `n` elements, none above `max m 0x7F`. -/
theorem C06_decode_agrees (esc : Bool) (w : Nat) (al : Nat → Bool) (bytes : List Nat) (hb : ∀ b ∈ bytes, b < 256)
    (n m : Nat) (h : getLen esc w al bytes = .ok (n, m)) (width : Nat) (hw : 6 ≤ width) (hM : max m 0x7F < 2 ^ width) :
    ∃ out, decode esc width bytes = .ok out ∧ out.length = n ∧ ∀ x ∈ out, x ≤ max m 0x7F := by
  rw [getLen_eq esc w al bytes hb] at h
  obtain ⟨out, e, hl, hall⟩ := slow_decode esc width hw _ 0 0 bytes n m (max m 0x7F) h (by omega) (by omega) hM
  exact ⟨out, e, by omega, hall⟩

/-- Creation of a string from a literal: for any bytes it ends with a string or an exception, never out of bounds, and
a created string consists of the decoded characters, all of which fit in the elements of the string. -/
theorem C06_new_string (esc : Bool) (w : Nat) (al : Nat → Bool) (bytes : List Nat) (hb : ∀ b ∈ bytes, b < 256) :
    newString esc w al bytes ≠ .ub ∧
    ∀ k out, newString esc w al bytes = .ok (k, out) →
      decode esc k.width bytes = .ok out ∧ out.length < 0xFFFF ∧ ∀ x ∈ out, x < k.bound := by
  unfold newString
  by_cases h1 : bytes.length > 4 * 0xFFFF
  · rw [if_pos h1]; exact ⟨by simp, by intro k out h; cases h⟩
  · rw [if_neg h1]
    by_cases h2 : bytes = []
    · rw [if_pos h2]; refine ⟨by simp, ?_⟩
      intro k out h
      simp only [Out.ok.injEq, Prod.mk.injEq] at h
      rw [← h.2, h2]; exact ⟨rfl, by simp, by simp⟩
    · rw [if_neg h2]
      have hsafe := C06_scan_in_bounds esc w al bytes hb
      cases hg : getLen esc w al bytes with
      | ub => exact absurd hg hsafe
      | err => exact ⟨by simp, by intro k out h; cases h⟩
      | ok p =>
        obtain ⟨n, m⟩ := p
        simp only
        by_cases h3 : n < 0xFFFF
        · rw [if_pos h3]
          have hg' := hg
          rw [getLen_eq esc w al bytes hb] at hg'
          have hm := slowLoop_bound esc _ _ _ _ _ _ hg' (by omega)
          have hcnt := slowLoop_count esc _ _ _ _ _ _ hg'
          obtain ⟨kw, k6⟩ := kind_width m hm
          obtain ⟨out, e, hl, hall⟩ := C06_decode_agrees esc w al bytes hb n m hg _ k6 kw
          rw [e]
          simp only
          have hfit : out.length * (kindFromMax m).elemBytes ≤ allocBytes (kindFromMax m) bytes.length := by
            rw [hl]
            unfold allocBytes
            cases kindFromMax m <;> simp only [Kind.flag, Kind.elemBytes, Nat.shiftLeft_eq] <;> omega
          rw [if_pos hfit]
          refine ⟨by simp, ?_⟩
          intro k out' h
          simp only [Out.ok.injEq, Prod.mk.injEq] at h
          obtain ⟨hk, ho⟩ := h
          rw [← hl, List.take_length] at ho
          subst ho; subst hk
          refine ⟨e, by omega, ?_⟩
          intro x hx
          have hx' := hall x hx
          unfold kindFromMax at kw ⊢
          split
          · show x < 128; omega
          · split
            · show x < 256; omega
            · split
              · show x < 65536; omega
              · show x < 4294967296; omega
        · rw [if_neg h3]; exact ⟨by simp, by intro k out h; cases h⟩

/-- Creation of a string from (a non-empty part of) a buffer never writes outside of the string. -/
theorem C06_from_buffer_in_bounds (w : Nat) (al : Nat → Bool) (bytes : List Nat) (hb : ∀ b ∈ bytes, b < 256)
    (hne : bytes ≠ []) : stringFromBuffer w al bytes ≠ .ub := by
  unfold stringFromBuffer
  have hsafe := C06_scan_in_bounds false w al bytes hb
  cases hg : getLen false w al bytes with
  | ub => exact absurd hg hsafe
  | err => simp
  | ok p =>
    obtain ⟨n, m⟩ := p
    simp only
    have hg' := hg
    rw [getLen_eq false w al bytes hb] at hg'
    have h4 := slowLoop_four _ _ _ _ _ _ hg'
    have hm := slowLoop_bound false _ _ _ _ _ _ hg' (by omega)
    obtain ⟨kw, k6⟩ := kind_width m hm
    obtain ⟨out, e, hl, hall⟩ := C06_decode_agrees false w al bytes hb n m hg _ k6 kw
    split
    · simp
    · have hn := h4.2.2 hne
      rw [if_neg (by omega)]
      cases hk : kindFromMax m with
      | ascii =>
        simp only
        rw [if_pos (by simp only [allocBytes, Kind.flag, Nat.shiftLeft_eq]; omega)]; simp
      | e8 =>
        rw [hk] at e
        simp only [e]
        rw [if_pos (by simp only [allocBytes, Kind.flag, Kind.elemBytes, Nat.shiftLeft_eq]; omega)]; simp
      | e16 =>
        rw [hk] at e
        simp only [e]
        rw [if_pos (by simp only [allocBytes, Kind.flag, Kind.elemBytes, Nat.shiftLeft_eq]; omega)]; simp
      | e32 =>
        rw [hk] at e
        simp only [e]
        rw [if_pos (by simp only [allocBytes, Kind.flag, Kind.elemBytes, Nat.shiftLeft_eq]; omega)]; simp

/-- What a string made from a buffer has to contain: the decoded characters. -/
def BufferStringCorrect (w : Nat) (al : Nat → Bool) (bytes : List Nat) : Prop :=
  ∀ k out, stringFromBuffer w al bytes = .ok (k, out) → decode false k.width bytes = .ok out ∧ ∀ x ∈ out, x < k.bound

/-- The buffer conversion copies bytes when the largest code is below 0x80, but overlong three- and four-byte encodings
of ASCII characters pass the scan: `E0 81 81` (which decodes to "A") becomes a string with the element 0xE0, marked as
ASCII. -/
theorem C06_from_buffer_violated : ¬ ∀ w al bytes, (∀ b ∈ bytes, b < 256) → bytes ≠ [] → BufferStringCorrect w al bytes := by
  intro h
  have h1 := h 8 (fun _ => false) [0xE0, 0x81, 0x81] (by decide) (by decide) .ascii [0xE0] (by decide +kernel)
  exact absurd h1.1 (by decide +kernel)

/-- Missing from the full claim: inputs with overlong encodings (a multi-byte sequence in text whose largest code is
below 0x80).  For all other inputs the string consists of the decoded characters. -/
theorem C06_from_buffer_partial (w : Nat) (al : Nat → Bool) (bytes : List Nat) (hb : ∀ b ∈ bytes, b < 256)
    (hov : ∀ n m, getLen false w al bytes = .ok (n, m) → m < 0x80 → ∀ b ∈ bytes, b < 0x80) :
    BufferStringCorrect w al bytes := by
  intro k out h
  unfold stringFromBuffer at h
  cases hg : getLen false w al bytes with
  | ub => rw [hg] at h; cases h
  | err => rw [hg] at h; cases h
  | ok p =>
    obtain ⟨n, m⟩ := p
    rw [hg] at h
    simp only at h
    have hg' := hg
    rw [getLen_eq false w al bytes hb] at hg'
    have hm := slowLoop_bound false _ _ _ _ _ _ hg' (by omega)
    obtain ⟨kw, k6⟩ := kind_width m hm
    obtain ⟨out', e, hl, hall⟩ := C06_decode_agrees false w al bytes hb n m hg _ k6 kw
    split at h
    · cases h
    · split at h
      · cases h
      · cases hk : kindFromMax m with
        | ascii =>
          rw [hk] at h e kw
          simp only at h
          have hm80 : m < 0x80 := by
            unfold kindFromMax at hk
            split at hk
            · assumption
            · split at hk
              · cases hk
              · split at hk <;> cases hk
          have ha := hov n m hg hm80
          have hd := decode_utf8 8 (by omega) bytes (bytes.length + 1)
            (fun c hc => ⟨by have := ha c hc; omega, by have := ha c hc; show c < 256; omega⟩)
            (by rw [flatMap_ascii bytes ha]; omega)
          rw [flatMap_ascii bytes ha] at hd
          have heq : out' = bytes := by
            have : (Out.ok out' : Out (List Nat)) = .ok bytes := e.symm.trans hd
            injection this
          split at h
          · simp only [Out.ok.injEq, Prod.mk.injEq] at h
            obtain ⟨h1, h2⟩ := h
            rw [← hl, heq, List.take_length] at h2
            subst h1; subst h2
            exact ⟨hd, fun x hx => ha x hx⟩
          · cases h
        | e8 =>
          rw [hk] at h e kw
          simp only [e] at h
          split at h
          · simp only [Out.ok.injEq, Prod.mk.injEq] at h
            obtain ⟨h1, h2⟩ := h
            rw [← hl, List.take_length] at h2
            subst h1; subst h2
            have kw' : max m 0x7F < 256 := kw
            exact ⟨e, fun x hx => by have := hall x hx; show x < 256; omega⟩
          · cases h
        | e16 =>
          rw [hk] at h e kw
          simp only [e] at h
          split at h
          · simp only [Out.ok.injEq, Prod.mk.injEq] at h
            obtain ⟨h1, h2⟩ := h
            rw [← hl, List.take_length] at h2
            subst h1; subst h2
            have kw' : max m 0x7F < 65536 := kw
            exact ⟨e, fun x hx => by have := hall x hx; show x < 65536; omega⟩
          · cases h
        | e32 =>
          rw [hk] at h e kw
          simp only [e] at h
          split at h
          · simp only [Out.ok.injEq, Prod.mk.injEq] at h
            obtain ⟨h1, h2⟩ := h
            rw [← hl, List.take_length] at h2
            subst h1; subst h2
            have kw' : max m 0x7F < 4294967296 := kw
            exact ⟨e, fun x hx => by have := hall x hx; show x < 4294967296; omega⟩
          · cases h

/-! Examples: an escape and a two-byte character after eight plain ones; truncated input is refused. -/
example : getLen true 8 (fun n => n % 8 == 2) [0x61, 0x5C, 0x78, 0x34, 0x31, 0xC3, 0xA9] = .ok (3, 0xE9) := by decide +kernel
example : decode true 8 [0x61, 0x5C, 0x78, 0x34, 0x31, 0xC3, 0xA9] = .ok [0x61, 0x41, 0xE9] := by decide +kernel
example : getLen false 8 (fun _ => true) [0x61, 0xE2, 0x82] = .err := by decide +kernel
example : newString false 8 (fun _ => true) [0x61, 0xE2, 0x82, 0xAC] = .ok (.e16, [0x61, 0x20AC]) := by decide +kernel

end Verif.Props
