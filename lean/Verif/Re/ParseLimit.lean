import Verif.Re.Parse

/-! # The length of compiled code is limited, so that every jump fits a word -/

namespace Verif.Re

/-- At most 65535 bytes of code. -/
def Short (c : Ctx) : Prop := c.buf.length ≤ 32767

/-- Parsers which only ever leave short code behind. -/
def Keeps (f : Ctx → Option Ctx) : Prop := ∀ c c', Short c → f c = some c' → Short c'

theorem emit_short {c c' : Ctx} {code : Nat} {args : List Nat} (h : c.emit code args = some c') : Short c' := by
  unfold Ctx.emit at h
  simp only at h
  split at h
  · cases h
  · rename_i hn
    cases h
    simp only [Short]
    omega

theorem patch_short {c : Ctx} {i t : Nat} (h : Short c) : Short (c.patch i t) := by
  simpa [Short, Ctx.patch] using h

theorem patchEnd_short {c : Ctx} {j : Option Nat} (h : Short c) : Short (c.patchEnd j) := by
  unfold Ctx.patchEnd
  split
  · exact patch_short h
  · exact h

theorem parseClass_short {c c' : Ctx} (h : parseClass c = some c') : Short c' := by
  unfold parseClass at h
  simp only at h
  split at h
  · cases h
  · exact emit_short h

theorem parseEscape_short {c c' : Ctx} (h : parseEscape c = some c') : Short c' := by
  unfold parseEscape at h
  split at h
  · cases h
  · simp only at h
    repeat' split at h
    all_goals first | exact emit_short h | cases h

theorem parseChar_short {c c' : Ctx} {x : Nat} (h : parseChar c x = some c') : Short c' := by
  unfold parseChar at h
  split at h <;> exact emit_short h

theorem emitMultiplicity_short {c c' : Ctx} {b mi ma : Nat} (h : emitMultiplicity c b mi ma = some c') : Short c' := by
  unfold emitMultiplicity at h
  simp only at h
  split at h
  · cases h
  · split at h
    · cases h
    · rename_i h1
      cases h
      exact patch_short (patch_short (emit_short h1))

theorem parseMultiplicity_short {c c' : Ctx} {b : Nat} (hc : Short c) (h : parseMultiplicity c b = some c') :
    Short c' := by
  unfold parseMultiplicity at h
  split at h
  · cases h; exact hc
  · split at h
    · split at h
      · simp only [Option.map_eq_some_iff] at h
        obtain ⟨c2, h2, rfl⟩ := h
        have : Short c2 := by
          repeat' split at h2
          all_goals first | exact emitMultiplicity_short h2 | cases h2
        exact this
      · cases h
    · cases h; exact hc

theorem altEnd_short {c c' : Ctx} {j : Option Nat} (hc : Short c) (h : altEnd c j = some c') : Short c' := by
  unfold altEnd at h
  simp only at h
  split at h
  · cases h; exact patchEnd_short hc
  · split at h
    · cases h; exact patchEnd_short hc
    · cases h

theorem altMark_short {c c' : Ctx} {f n : Nat} {j : Option Nat} (h : altMark c f j = some (c', n)) : Short c' := by
  unfold altMark at h
  simp only at h
  split at h
  · cases h
  · split at h
    · cases h
    · rename_i h1
      cases h
      exact patch_short (emit_short h1)

theorem groupBegin_short {c c' : Ctx} {n : Nat} (h : groupBegin c = some (n, c')) : Short c' := by
  unfold groupBegin at h
  split at h
  · simp only at h
    split at h
    · split at h
      · cases h
      · rename_i h1
        cases h
        have := emit_short h1
        exact this
    · cases h
  · split at h
    · cases h
    · rename_i h1
      cases h
      have := emit_short h1
      exact this

theorem groupEnd_short {c c' : Ctx} {n : Nat} (h : groupEnd n c = some c') : Short c' := by
  unfold groupEnd at h
  split at h
  · cases h
  · exact emit_short h

theorem parse_short : ∀ n, Keeps (parseAlt n) ∧ (∀ f j, Keeps (altLoop n f j)) ∧ Keeps (parseSeq n) ∧ Keeps (parseSingle n)
  | 0 => by
    refine ⟨?_, ?_, ?_, ?_⟩
    · intro c c' _ h; simp [parseAlt] at h
    · intro f j c c' _ h; simp [altLoop] at h
    · intro c c' _ h; simp [parseSeq] at h
    · intro c c' _ h; simp [parseSingle] at h
  | n + 1 => by
    obtain ⟨h1, h2, h3, h4⟩ := parse_short n
    refine ⟨?_, ?_, ?_, ?_⟩
    · intro c c' hc h
      unfold parseAlt at h
      split at h
      · cases h
      · rename_i hs
        exact h2 _ _ _ _ (h3 { c with canMult := false } _ hc hs) h
    · intro f j c c' hc h
      unfold altLoop at h
      split at h
      · split at h
        · cases h
        · split at h
          · cases h
          · rename_i hm _ _ hs
            exact h2 _ _ _ _ (h3 _ _ (altMark_short hm) hs) h
      · exact altEnd_short hc h
    · intro c c' hc h
      unfold parseSeq at h
      split at h
      · cases h; exact hc
      · split at h
        · cases h
        · split at h
          · cases h
          · rename_i hs _ _ hm
            exact h3 _ _ (parseMultiplicity_short (h4 _ _ hc hs) hm) h
    · intro c c' hc h
      unfold parseSingle at h
      repeat' split at h
      all_goals first
        | exact emit_short h
        | exact parseEscape_short h
        | exact parseClass_short h
        | exact parseChar_short h
        | exact groupEnd_short h
        | cases h
      exact hc

theorem compile_short {text : List Nat} {p : Prog} (h : compile text = some p) : p.code.length ≤ 32767 := by
  simp only [compile, Option.map_eq_some_iff] at h
  obtain ⟨c, hc, rfl⟩ := h
  exact (parse_short _).1 _ c (by simp [Short]) hc

end Verif.Re
