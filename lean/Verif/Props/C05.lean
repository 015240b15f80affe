import Verif.Utf8.Enc
/-
C05: a string converted to UTF-8 and back is the same string.
-/
namespace Verif.Props
open Verif.Utf8

/-- Elements of a string of the kind which `KOS_string_to_utf8` can write (codes below 2^21). -/
def Encodable (k : Kind) (codes : List Nat) : Prop := ∀ c ∈ codes, c < k.bound ∧ c < 2097152

/-- The bytes written are standard UTF-8 of the elements, and the computed size is their exact number. -/
theorem C05_encode (k : Kind) (codes : List Nat) (h : Encodable k codes) :
    stringToUtf8 k codes = some (codes.flatMap utf8, (codes.flatMap utf8).length) := by
  cases k with
  | ascii =>
    have ha : ∀ c ∈ codes, c < 0x80 := fun c hc => (h c hc).1
    rw [flatMap_ascii codes ha]; rfl
  | e8 =>
    have h8 : ∀ c ∈ codes, c < 256 := fun c hc => (h c hc).1
    show (if calcSize8 codes = codes.length then some (codes, calcSize8 codes) else some (encode8 codes, calcSize8 codes)) = _
    rw [encode8_eq codes h8, calcSize8_eq codes h8]
    split
    · rename_i heq
      -- one byte per element: all are ASCII
      have ha : ∀ c ∈ codes, c < 0x80 := by
        have key : ∀ l : List Nat, l.length ≤ (l.flatMap utf8).length ∧
            ((l.flatMap utf8).length = l.length → ∀ c ∈ l, c < 0x80) := by
          intro l
          induction l with
          | nil => simp
          | cons c cs ih =>
            rw [List.flatMap_cons, List.length_append, List.length_cons]
            have hp := utf8_ne_nil c
            refine ⟨by omega, ?_⟩
            intro hl x hx
            rcases List.mem_cons.mp hx with rfl | hx
            · have h1 : (utf8 x).length = 1 := by omega
              unfold utf8 at h1
              split at h1
              · assumption
              · split at h1
                · simp at h1
                · split at h1 <;> simp at h1
            · exact ih.2 (by omega) x hx
        exact (key codes).2 heq
      rw [flatMap_ascii codes ha]
    · rfl
  | e16 =>
    have h16 : ∀ c ∈ codes, c < 65536 := fun c hc => (h c hc).1
    show some (encode16 codes, calcSize16 codes) = _
    rw [encode16_eq codes h16, calcSize16_eq codes h16]
  | e32 =>
    have h32 : ∀ c ∈ codes, c < 2097152 := fun c hc => (h c hc).2
    simp only [stringToUtf8]
    rw [encode32_eq codes h32, calcSize32_eq codes 0 h32, Nat.zero_add]

/-- A string with a code of 2^21 or above is refused, whatever else it contains. -/
theorem C05_too_large_refused (codes : List Nat) (h : ∃ c ∈ codes, 2097152 ≤ c) : stringToUtf8 .e32 codes = none := by
  simp only [stringToUtf8]
  rw [calcSize32_none codes 0 h]

/-- Full round trip: any string of any element width goes through a buffer and comes back with the same characters, in the
narrowest kind which holds them. -/
theorem C05_round_trip (k : Kind) (codes : List Nat) (h : Encodable k codes) (hne : codes ≠ [])
    (hlen : codes.length ≤ 0xFFFF) (w : Nat) (al : Nat → Bool) :
    ∃ bytes size k', stringToUtf8 k codes = some (bytes, size) ∧ bytes.length = size ∧ (∀ b ∈ bytes, b < 256) ∧
      stringFromBuffer w al bytes = .ok (k', codes) ∧ Encodable k' codes := by
  have hlim : ∀ c ∈ codes, c < 2097152 := fun c hc => (h c hc).2
  have hbytes : ∀ b ∈ codes.flatMap utf8, b < 256 := by
    intro b hb
    obtain ⟨c, hc, hb⟩ := List.mem_flatMap.mp hb
    exact utf8_bytes c (hlim c hc) b hb
  have hscan : getLen false w al (codes.flatMap utf8) = .ok (codes.length, maxMulti 0 codes) := by
    rw [getLen_eq _ _ _ _ hbytes, slow_utf8 codes _ 0 0 hlim (Nat.lt_succ_self _), Nat.zero_add]
  have hge := (maxMulti_ge codes 0).2
  have hle := maxMulti_le codes 0 2097151 (by omega) (fun c hc => by have := hlim c hc; omega)
  have hpos : 0 < codes.length := by cases codes with | nil => exact absurd rfl hne | cons _ _ => simp
  have hdec : ∀ width, 6 ≤ width → (∀ c ∈ codes, c < 2 ^ width) →
      decode false width (codes.flatMap utf8) = .ok codes := fun width hw hc =>
    decode_utf8 width hw codes _ (fun c hcm => ⟨hlim c hcm, hc c hcm⟩) (Nat.lt_succ_self _)
  refine ⟨codes.flatMap utf8, _, kindFromMax (maxMulti 0 codes), C05_encode k codes h, rfl, hbytes, ?_, ?_⟩
  · unfold stringFromBuffer
    rw [hscan]
    simp only
    rw [if_neg (by omega), if_neg (by omega)]
    unfold kindFromMax
    by_cases h1 : maxMulti 0 codes < 0x80
    · have ha : ∀ c ∈ codes, c < 0x80 := fun c hc => by
        by_cases h80 : 0x80 ≤ c
        · have := hge c hc h80; omega
        · omega
      rw [if_pos h1, flatMap_ascii codes ha]
      simp only
      rw [if_pos (by simp only [allocBytes, Kind.flag, Nat.shiftLeft_eq]; omega), List.take_length]
    · rw [if_neg h1]
      by_cases h2 : maxMulti 0 codes < 0x100
      · rw [if_pos h2]
        simp only [Kind.width]
        rw [hdec 8 (by omega) (fun c hc => by
          by_cases h80 : 0x80 ≤ c
          · have := hge c hc h80; omega
          · omega)]
        simp only
        rw [if_pos (by simp only [allocBytes, Kind.flag, Kind.elemBytes, Nat.shiftLeft_eq]; omega), List.take_length]
      · rw [if_neg h2]
        by_cases h3 : maxMulti 0 codes < 0x10000
        · rw [if_pos h3]
          simp only [Kind.width]
          rw [hdec 16 (by omega) (fun c hc => by
            by_cases h80 : 0x80 ≤ c
            · have := hge c hc h80; omega
            · omega)]
          simp only
          rw [if_pos (by simp only [allocBytes, Kind.flag, Kind.elemBytes, Nat.shiftLeft_eq]; omega), List.take_length]
        · rw [if_neg h3]
          simp only [Kind.width]
          rw [hdec 32 (by omega) (fun c hc => by have := hlim c hc; omega)]
          simp only
          rw [if_pos (by simp only [allocBytes, Kind.flag, Kind.elemBytes, Nat.shiftLeft_eq]; omega), List.take_length]
  · intro c hc
    refine ⟨?_, hlim c hc⟩
    have hcm : c < 0x80 ∨ c ≤ maxMulti 0 codes := by
      by_cases h80 : 0x80 ≤ c
      · right; exact hge c hc h80
      · left; omega
    unfold kindFromMax
    split
    · show c < 128; omega
    · split
      · show c < 256; omega
      · split
        · show c < 65536; omega
        · show c < 4294967296; omega

/-- Encoding is injective: different strings have different bytes, whatever their element widths. -/
theorem C05_injective (k k' : Kind) (a b : List Nat) (ha : Encodable k a) (hb : Encodable k' b)
    (h : stringToUtf8 k a = stringToUtf8 k' b) : a = b := by
  rw [C05_encode k a ha, C05_encode k' b hb] at h
  have he : a.flatMap utf8 = b.flatMap utf8 := by
    simp only [Option.some.injEq, Prod.mk.injEq] at h; exact h.1
  have da := decode_utf8 32 (by omega) a ((a.flatMap utf8).length + 1)
    (fun c hc => ⟨(ha c hc).2, by have := (ha c hc).2; omega⟩) (Nat.lt_succ_self _)
  have db := decode_utf8 32 (by omega) b ((b.flatMap utf8).length + 1)
    (fun c hc => ⟨(hb c hc).2, by have := (hb c hc).2; omega⟩) (Nat.lt_succ_self _)
  rw [he] at da
  have := da.symm.trans db
  injection this

/-! Example: characters of one, two, three and four bytes. -/
example : stringToUtf8 .e32 [0x41, 0xE9, 0x20AC, 0x1F600] =
    some ([0x41, 0xC3, 0xA9, 0xE2, 0x82, 0xAC, 0xF0, 0x9F, 0x98, 0x80], 10) := by decide +kernel
example : stringFromBuffer 8 (fun _ => false) [0x41, 0xC3, 0xA9, 0xE2, 0x82, 0xAC, 0xF0, 0x9F, 0x98, 0x80] =
    .ok (.e32, [0x41, 0xE9, 0x20AC, 0x1F600]) := by decide +kernel

end Verif.Props
