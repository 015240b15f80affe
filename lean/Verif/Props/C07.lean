import Verif.Utf8.Concat
import Verif.Compiler.StrLit
import Verif.Props.C06
/-
C07: when the optimizer joins two string literals, the joined literal denotes the concatenation of the two strings.
-/
namespace Verif.Props
open Verif.Utf8 Verif.Compiler

namespace C07.Spec
/-- The text of a literal token: opening quote or `)` of a continued literal, the body, closing quote or `\(`;
raw literals have an `r` in front. -/
inductive Literal : StrTok → Bool → List Nat → Prop
  | plain (q : Nat) (body : List Nat) : q = 34 ∨ q = 41 → Literal ⟨false, q :: (body ++ [34])⟩ false body
  | opened (q : Nat) (body : List Nat) : q = 34 ∨ q = 41 → Literal ⟨true, q :: (body ++ [92, 40])⟩ false body
  | raw (r : Nat) (body : List Nat) : r = 114 ∨ r = 82 → Literal ⟨false, r :: 34 :: (body ++ [34])⟩ true body
end C07.Spec
open C07.Spec

/-- `get_token_str` finds the body. -/
theorem C07_body (t : StrTok) (raw : Bool) (body : List Nat) (h : Literal t raw body) : tokenStr t = (body, !raw) := by
  cases h with
  | plain q _ hq =>
    rcases hq with rfl | rfl <;> simp [tokenStr]
  | opened q _ hq =>
    rcases hq with rfl | rfl <;> simp [tokenStr]
  | raw r _ hr =>
    rcases hr with rfl | rfl <;> simp [tokenStr]

theorem join_eq (a b : StrTok) (raw : Bool) (ba bb : List Nat) (ha : Literal a raw ba) (hb : Literal b raw bb) :
    addStrings a b = if ba.length + bb.length + (if raw then 3 else 2) ≥ 0xFFFF then none
      else some ⟨false, (if raw then [114] else []) ++ 34 :: (ba ++ (bb ++ [34]))⟩ := by
  cases ha with
  | plain q _ hq =>
    cases hb with
    | plain q' _ hq' => rcases hq with rfl | rfl <;> simp [addStrings, isRaw]
    | opened q' _ hq' => rcases hq with rfl | rfl <;> simp [addStrings, isRaw]
  | opened q _ hq =>
    cases hb with
    | plain q' _ hq' => rcases hq with rfl | rfl <;> simp [addStrings, isRaw]
    | opened q' _ hq' => rcases hq with rfl | rfl <;> simp [addStrings, isRaw]
  | raw r _ hr =>
    cases hb with
    | raw r' _ hr' => rcases hr with rfl | rfl <;> simp [addStrings, isRaw]

/-- The joined token is a literal whose body is the two bodies, one after the other. -/
theorem C07_joined_text (a b t : StrTok) (raw : Bool) (ba bb : List Nat) (ha : Literal a raw ba) (hb : Literal b raw bb)
    (h : addStrings a b = some t) : Literal t raw (ba ++ bb) ∧ (ba ++ bb).length < 0xFFFF := by
  rw [join_eq a b raw ba bb ha hb] at h
  by_cases hl : ba.length + bb.length + (if raw then 3 else 2) ≥ 0xFFFF
  · rw [if_pos hl] at h; cases h
  · rw [if_neg hl] at h
    injection h with h
    subst h
    cases raw with
    | false =>
      have := Literal.plain 34 (ba ++ bb) (Or.inl rfl)
      simp only [List.append_assoc] at this
      exact ⟨by simpa using this, by simp only [List.length_append]; simp at hl; omega⟩
    | true =>
      have := Literal.raw 114 (ba ++ bb) (Or.inl rfl)
      simp only [List.append_assoc] at this
      exact ⟨by simpa using this, by simp only [List.length_append]; simp at hl; omega⟩

/-- The scan of joined text is determined by the scans of its parts. -/
theorem C07_scan_joined (esc : Bool) (w : Nat) (al : Nat → Bool) (a b : List Nat) (hab : ∀ x ∈ a ++ b, x < 256)
    (n1 m1 n2 m2 : Nat) (h1 : getLen esc w al a = .ok (n1, m1)) (h2 : getLen esc w al b = .ok (n2, m2)) :
    getLen esc w al (a ++ b) = .ok (n1 + n2, max m1 m2) := by
  have ha : ∀ x ∈ a, x < 256 := fun x hx => hab x (by simp [hx])
  have hb : ∀ x ∈ b, x < 256 := fun x hx => hab x (by simp [hx])
  rw [getLen_eq _ _ _ _ ha] at h1
  rw [getLen_eq _ _ _ _ hb] at h2
  rw [getLen_eq _ _ _ _ hab]
  have k1 := slow_append esc b _ 0 0 0 0 a n1 m1 h1 (Nat.lt_succ_self _)
  have k2 := slow_append esc [] _ 0 0 m1 n1 b n2 m2 h2 (Nat.lt_succ_self _)
  simp only [Nat.add_zero, Nat.zero_add, Nat.max_zero, Nat.zero_max, List.append_nil] at k1 k2
  rw [k1, k2]
  rfl

/-- Two literals which denote strings `xa` and `xb`: if the optimizer joins them, the result denotes `xa ++ xb`. -/
theorem C07_joined_literal (a b t : StrTok) (raw : Bool) (ba bb : List Nat) (ha : Literal a raw ba)
    (hb : Literal b raw bb) (h : addStrings a b = some t) (hbytes : ∀ x ∈ ba ++ bb, x < 256) (w : Nat) (al : Nat → Bool)
    (ka kb : Kind) (xa xb : List Nat) (va : newString (!raw) w al ba = .ok (ka, xa))
    (vb : newString (!raw) w al bb = .ok (kb, xb)) :
    ∃ k, newString (tokenStr t).2 w al (tokenStr t).1 = .ok (k, xa ++ xb) := by
  obtain ⟨ht, hlen⟩ := C07_joined_text a b t raw ba bb ha hb h
  rw [C07_body t raw _ ht]
  simp only
  generalize (!raw) = esc at va vb ⊢
  have hba : ∀ x ∈ ba, x < 256 := fun x hx => hbytes x (by simp [hx])
  have hbb : ∀ x ∈ bb, x < 256 := fun x hx => hbytes x (by simp [hx])
  -- each part was scanned successfully and decoded at its own width
  have part : ∀ (s : List Nat) (k : Kind) (x : List Nat), (∀ b ∈ s, b < 256) → newString esc w al s = .ok (k, x) →
      ∃ n m, getLen esc w al s = .ok (n, m) ∧ decode esc 32 s = .ok x := by
    intro s k x hs hv
    by_cases hne : s = []
    · subst hne
      refine ⟨0, 0, rfl, ?_⟩
      have hx : x = [] := by simp [newString] at hv; exact hv.2
      rw [hx]; rfl
    · have hd := ((C06_new_string esc w al s hs).2 k x hv).1
      unfold newString at hv
      by_cases h4 : s.length > 4 * 0xFFFF
      · rw [if_pos h4] at hv; cases hv
      · rw [if_neg h4, if_neg hne] at hv
        cases hg : getLen esc w al s with
        | err => rw [hg] at hv; cases hv
        | ub => rw [hg] at hv; cases hv
        | ok p =>
          obtain ⟨n, m⟩ := p
          refine ⟨n, m, rfl, ?_⟩
          rw [hg] at hv
          simp only at hv
          split at hv
          · have hkm : k = kindFromMax m := by
              split at hv
              · split at hv
                · simp only [Out.ok.injEq, Prod.mk.injEq] at hv; exact hv.1.symm
                · cases hv
              · cases hv
              · cases hv
            have hg' := hg
            rw [getLen_eq _ _ _ _ hs] at hg'
            have hm := slowLoop_bound esc _ _ _ _ _ _ hg' (by omega)
            obtain ⟨kw, k6⟩ := kind_width m hm
            rw [← hkm] at kw k6
            have e := decode_same esc k.width 32 k6 (by omega) _ _ _ _ _ _ (max m 0x7F) hg' (by omega) (by omega) kw
              (show _ < 4294967296 by omega)
            unfold decode at hd ⊢
            rw [← e]; exact hd
          · cases hv
  obtain ⟨n1, m1, g1, d1⟩ := part ba ka xa hba va
  obtain ⟨n2, m2, g2, d2⟩ := part bb kb xb hbb vb
  have g := C07_scan_joined esc w al ba bb hbytes n1 m1 n2 m2 g1 g2
  have d : decode esc 32 (ba ++ bb) = .ok (xa ++ xb) := by
    have := decode_append esc 32 bb xb _ d2 _ ba xa d1
    have hfree := slow_decode esc 32 (by omega) _ _ _ _ _ _ (max (max m1 m2) 0x7F) (by rw [← getLen_eq esc w al _ hbytes]; exact g)
      (by omega) (by omega)
    have hb1 := slowLoop_bound esc _ _ _ _ _ _ (by rw [← getLen_eq esc w al _ hbytes]; exact g) (by omega)
    obtain ⟨out, eo, _⟩ := hfree (show _ < 4294967296 by omega)
    unfold decode
    rw [eo]
    have := decode_fuel esc 32 _ ((ba ++ bb).length + 1 + (ba.length + 1 + (bb.length + 1))) _ _ eo (by omega)
    have h2 := decode_fuel esc 32 _ ((ba ++ bb).length + 1 + (ba.length + 1 + (bb.length + 1))) _ _ ‹decodeLoop esc 32 (ba.length + 1 + (bb.length + 1)) (ba ++ bb) = .ok (xa ++ xb)› (by omega)
    rw [this] at h2
    exact h2
  -- the joined text
  by_cases hne : ba ++ bb = []
  · have hx : xa ++ xb = [] := by
      rw [hne] at d
      have : (Out.ok [] : Out (List Nat)) = .ok (xa ++ xb) := d
      injection this with this; exact this.symm
    refine ⟨.ascii, ?_⟩
    unfold newString
    rw [if_neg (by omega), if_pos hne, hx]
  · have hg' := g
    rw [getLen_eq _ _ _ _ hbytes] at hg'
    have hm := slowLoop_bound esc _ _ _ _ _ _ hg' (by omega)
    have hcnt := slowLoop_count esc _ _ _ _ _ _ hg'
    obtain ⟨kw, k6⟩ := kind_width _ hm
    refine ⟨kindFromMax (max m1 m2), ?_⟩
    have e := decode_same esc (kindFromMax (max m1 m2)).width 32 k6 (by omega) _ _ _ _ _ _ (max (max m1 m2) 0x7F) hg'
      (by omega) (by omega) kw (show _ < 4294967296 by omega)
    obtain ⟨out, eo, hl, _⟩ := C06_decode_agrees esc w al _ hbytes _ _ g _ k6 kw
    have ed : decode esc (kindFromMax (max m1 m2)).width (ba ++ bb) = .ok (xa ++ xb) := by
      unfold decode at d ⊢; rw [e]; exact d
    have hlen2 : (xa ++ xb).length = n1 + n2 := by
      rw [ed] at eo; injection eo with eo; rw [eo]; exact hl
    unfold newString
    rw [if_neg (by omega), if_neg hne, g]
    simp only
    rw [if_pos (by omega), ed]
    simp only
    have hfit : (xa ++ xb).length * (kindFromMax (max m1 m2)).elemBytes ≤ allocBytes (kindFromMax (max m1 m2)) (ba ++ bb).length := by
      rw [hlen2]
      unfold allocBytes
      cases kindFromMax (max m1 m2) <;> simp only [Kind.flag, Kind.elemBytes, Nat.shiftLeft_eq] <;> omega
    rw [if_pos hfit, ← hlen2, List.take_length]

/-- Joining is refused only when the joined text would be 65533 bytes or longer... -/
theorem C53_join_accepts_partial (a b : StrTok) (raw : Bool) (ba bb : List Nat) (ha : Literal a raw ba) (hb : Literal b raw bb)
    (hl : ba.length + bb.length < 0xFFFC) : ∃ t, addStrings a b = some t := by
  rw [join_eq a b raw ba bb ha hb, if_neg (by split <;> omega)]
  exact ⟨_, rfl⟩

/-- ...but that limit is in bytes, while the limit on strings is in characters: the program is refused although the sum
is a string which the unoptimized program would have computed.  Two raw literals of 20000 euro signs each. -/
theorem C53_join_limit_violated : ∃ (a b : StrTok) (ba bb : List Nat), Literal a true ba ∧ Literal b true bb ∧
    (∃ ka kb xa xb, newString false 8 (fun _ => false) ba = .ok (ka, xa) ∧ newString false 8 (fun _ => false) bb = .ok (kb, xb) ∧
      (xa ++ xb).length < 0xFFFF) ∧ a.text.length ≤ 0xFFFF ∧ b.text.length ≤ 0xFFFF ∧ addStrings a b = none := by
  let codes := List.replicate 20000 0x20AC
  let body := codes.flatMap utf8
  have hlen : body.length = 60000 := by
    show (codes.flatMap utf8).length = _
    have : ∀ n, ((List.replicate n 0x20AC).flatMap utf8).length = 3 * n := by
      intro n
      induction n with
      | zero => rfl
      | succ n ih => rw [List.replicate_succ, List.flatMap_cons, List.length_append, ih]; show 3 + 3 * n = _; omega
    exact this 20000
  have hc : ∀ c ∈ codes, c = 0x20AC := fun c hc => List.eq_of_mem_replicate hc
  have hcl : codes.length = 20000 := List.length_replicate
  have hbytes : ∀ b ∈ body, b < 256 := by
    intro b hb
    obtain ⟨c, h1, h2⟩ := List.mem_flatMap.mp hb
    exact utf8_bytes c (by rw [hc c h1]; omega) b h2
  have hg : getLen false 8 (fun _ => false) body = .ok (20000, maxMulti 0 codes) := by
    rw [getLen_eq _ _ _ _ hbytes, slow_utf8 codes _ 0 0 (fun c h => by rw [hc c h]; omega) (Nat.lt_succ_self _), hcl]
  have hmax : maxMulti 0 codes = 0x20AC := by
    apply Nat.le_antisymm
    · exact maxMulti_le codes 0 _ (by omega) (fun c h => by rw [hc c h]; omega)
    · exact (maxMulti_ge codes 0).2 0x20AC (by show _ ∈ List.replicate _ _; exact List.mem_replicate.mpr ⟨by omega, rfl⟩) (by omega)
  have hd : decode false 16 body = .ok codes :=
    decode_utf8 16 (by omega) codes _ (fun c h => by rw [hc c h]; exact ⟨by omega, show _ < 65536 by omega⟩) (Nat.lt_succ_self _)
  have hv : newString false 8 (fun _ => false) body = .ok (.e16, codes) := by
    unfold newString
    rw [if_neg (by omega), if_neg (by intro h; rw [h] at hlen; simp at hlen), hg, hmax]
    simp only
    rw [if_pos (by omega)]
    have hk : kindFromMax 0x20AC = .e16 := by decide
    rw [hk]
    simp only [show Kind.e16.width = 16 from rfl, hd]
    rw [if_pos (by rw [hcl]; simp only [allocBytes, Kind.flag, Kind.elemBytes, Nat.shiftLeft_eq]; omega), ← hcl, List.take_length]
  have hL := Literal.raw 114 body (Or.inl rfl)
  refine ⟨_, _, body, body, hL, hL, ⟨_, _, _, _, hv, hv, ?_⟩, ?_, ?_, ?_⟩
  · simp only [List.length_append]; omega
  · simp only [List.length_cons, List.length_append, List.length_nil]; omega
  · simp only [List.length_cons, List.length_append, List.length_nil]; omega
  · rw [join_eq _ _ _ _ _ hL hL, if_pos (by simp only [if_true]; omega)]

/-! Example: `"a\x4"` cannot be a literal, and `"a\x41" + "2\n"` becomes `"a\x412\n"`, which denotes `aA2` and a line end. -/
example : addStrings ⟨false, [34, 97, 92, 120, 52, 49, 34]⟩ ⟨true, [41, 50, 92, 110, 92, 40]⟩ =
    some ⟨false, [34, 97, 92, 120, 52, 49, 50, 92, 110, 34]⟩ := by decide +kernel
example : newString true 8 (fun _ => false) [97, 92, 120, 52, 49, 50, 92, 110] = .ok (.ascii, [97, 65, 50, 10]) := by
  decide +kernel

end Verif.Props
