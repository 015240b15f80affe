import Verif.Str.Ops

/-!
C54: `lowercase` and `uppercase` convert every character.

`conv` is `towlower` or `towupper` of the C library, which depends on the locale (core/kos_unicode.h:37).  Characters from
U+10000 on are never converted, because `wchar_t` may have 16 bits.
-/
namespace Verif.Props

open Verif.Str

/-- What is expected of a conversion. -/
def converted (conv : Nat → Nat) (cs : List Nat) : List Nat := cs.map fun c => if c < 0x10000 then conv c else c

/-- The full claim. -/
def C54_case_full : Prop :=
  ∀ (env : Env) (conv : Nat → Nat) (s : S) (cs : List Nat), Rep s cs → (∀ c, c < 128 → conv c < 128) → (∀ c, c < 0x10000 → conv c < 0x10000) →
    (∃ r, changeCase env conv s = .ok r ∧ Rep r (converted conv cs)) ∨ (changeCase env conv s = .raise .outOfMemory ∧ env.mem = false)

/-- It holds if the converted characters fit in the element size of the string, and ASCII strings stay ASCII. -/
theorem C54_case_partial (env : Env) (conv : Nat → Nat) (s : S) (cs : List Nat) (h : Rep s cs)
    (hw : ∀ c ∈ cs, c < 0x10000 → conv c < 256 ^ s.width.bytes) (ha : s.ascii = true → ∀ c ∈ cs, conv c < 128) :
    (∃ r, changeCase env conv s = .ok r ∧ Rep r (converted conv cs)) ∨ (changeCase env conv s = .raise .outOfMemory ∧ env.mem = false) := by
  rcases changeCase_spec env conv s cs h (fun a c hc => by have := ha a c hc; omega) with ⟨r, e1, e2⟩ | e
  · refine Or.inl ⟨r, e1, ?_⟩
    have : converted conv cs = cs.map fun c => (if s.width = .w32 ∧ ¬ c < 0x10000 then c else conv c) % 256 ^ s.width.bytes := by
      apply List.map_congr_left
      intro c hc
      have hf := h.fit c hc
      by_cases hlt : c < 0x10000
      · rw [if_pos hlt, if_neg (by simp [hlt]), Nat.mod_eq_of_lt (hw c hc hlt)]
      · have : s.width = .w32 := by
          cases hws : s.width with
          | w8 => rw [hws] at hf; simp only [Width.bytes] at hf; omega
          | w16 => rw [hws] at hf; simp only [Width.bytes] at hf; omega
          | w32 => rfl
        rw [if_neg hlt, if_pos ⟨this, hlt⟩, Nat.mod_eq_of_lt hf]
    rw [this]
    exact e2
  · exact Or.inr e

/-- Strings of 32-bit characters are always converted properly, and so are strings of 16-bit characters. -/
theorem C54_wide (env : Env) (conv : Nat → Nat) (s : S) (cs : List Nat) (h : Rep s cs) (hs : s.width ≠ .w8) (ha : s.ascii = false)
    (hc : ∀ c, c < 0x10000 → conv c < 0x10000) :
    (∃ r, changeCase env conv s = .ok r ∧ Rep r (converted conv cs)) ∨ (changeCase env conv s = .raise .outOfMemory ∧ env.mem = false) := by
  refine C54_case_partial env conv s cs h (fun c _ hlt => ?_) (fun a => by rw [ha] at a; exact absurd a (by simp))
  have := hc c hlt
  cases hw : s.width with
  | w8 => exact absurd hw hs
  | w16 => simp only [Width.bytes]; omega
  | w32 => simp only [Width.bytes]; omega

/-- Part of `towupper` in the locales of glibc: "ÿ" becomes U+178 and "µ" becomes U+39C. -/
def upper (c : Nat) : Nat := if 97 ≤ c ∧ c ≤ 122 then c - 32 else if c = 0xFF then 0x178 else if c = 0xB5 then 0x39C else c

/-- The code violates it: converted characters are cut to 8 bits (core/kos_string.c:1731), so the uppercase of "ÿ" is "x". -/
theorem C54_case_violated : ¬ C54_case_full := by
  intro h
  have hr : Rep ⟨.w8, false, .inObj, 1, 0, 0, [0xFF]⟩ [0xFF] := ⟨rfl, by simp, ⟨[], rfl⟩, by decide, by simp, rfl, Or.inl rfl⟩
  have e : changeCase ⟨true, 0, fun _ => 0⟩ upper ⟨.w8, false, .inObj, 1, 0, 0, [0xFF]⟩ = .ok ⟨.w8, false, .inObj, 1, 0, 0, [0x78]⟩ := by
    decide +kernel
  rcases h ⟨true, 0, fun _ => 0⟩ upper _ _ hr (fun c hc => by unfold upper; split <;> (try split) <;> (try split) <;> omega) (fun c hc => by unfold upper; split <;> (try split) <;> (try split) <;> omega) with
    ⟨r, e1, e2⟩ | ⟨e1, _⟩
  · rw [e] at e1
    injection e1 with e1
    subst e1
    have := e2.fit 0x178 (by decide)
    simp only [Width.bytes] at this
    omega
  · rw [e] at e1; exact absurd e1 (by simp)

/-- "aÿ" with 16 bits per character. -/
example : changeCase ⟨true, 0, fun _ => 0⟩ upper ⟨.w16, false, .inObj, 2, 0, 0, [97, 0, 255, 0]⟩ = .ok ⟨.w16, false, .inObj, 2, 0, 0, [65, 0, 0x78, 1]⟩ := by
  decide +kernel

end Verif.Props
