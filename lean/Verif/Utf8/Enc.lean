import Verif.Utf8.Lemmas
namespace Verif.Utf8

/-- UTF-8 as published (RFC 3629 section 3, with four-byte sequences up to 21 bits), by arithmetic. -/
def utf8 (c : Nat) : List Nat :=
  if c < 0x80 then [c]
  else if c < 0x800 then [192 + c / 64, 128 + c % 64]
  else if c < 0x10000 then [224 + c / 4096, 128 + c / 64 % 64, 128 + c % 64]
  else [240 + c / 262144, 128 + c / 4096 % 64, 128 + c / 64 % 64, 128 + c % 64]

theorem or_c0 (x : Nat) (h : x < 32) : 0xC0 ||| x = 192 + x := or_mul 6 3 x (by omega)
theorem or_e0 (x : Nat) (h : x < 16) : 0xE0 ||| x = 224 + x := or_mul 5 7 x (by omega)
theorem or_f0 (x : Nat) (h : x < 8) : 0xF0 ||| x = 240 + x := or_mul 4 15 x (by omega)
theorem or_80 (x : Nat) (h : x < 64) : 0x80 ||| x = 128 + x := or_mul 6 2 x (by omega)

theorem shr6 (c : Nat) : c >>> 6 = c / 64 := Nat.shiftRight_eq_div_pow c 6
theorem shr12 (c : Nat) : c >>> (6+6) = c / 4096 := Nat.shiftRight_eq_div_pow c 12
theorem shr18 (c : Nat) : c >>> (6+6+6) = c / 262144 := Nat.shiftRight_eq_div_pow c 18
theorem cont_byte (x : Nat) : (0x80 ||| (x &&& 0x3F)) % 256 = 128 + x % 64 := by
  rw [and3f, or_80 _ (Nat.mod_lt _ (by decide))]; omega

theorem and80 (c : Nat) (h : c < 256) : (c &&& 0x80 ≠ 0) ↔ 0x80 ≤ c := by
  have : ∀ c : Fin 256, (c.val &&& 0x80 ≠ 0) ↔ 0x80 ≤ c.val := by decide +kernel
  exact this ⟨c, h⟩

theorem encode8_eq (codes : List Nat) : (∀ c ∈ codes, c < 256) → encode8 codes = codes.flatMap utf8 := by
  induction codes with
  | nil => intro _; rfl
  | cons c cs ih =>
    intro h
    have hc := h c (by simp)
    rw [encode8, ih (fun x hx => h x (by simp [hx])), List.flatMap_cons]
    unfold utf8
    by_cases h1 : 0x80 ≤ c
    · rw [if_pos ((and80 c hc).mpr h1), if_neg (by omega), if_pos (by omega), cont_byte, shr6, or_c0 _ (by omega),
        Nat.mod_eq_of_lt (by omega)]; rfl
    · rw [if_neg (fun hh => h1 ((and80 c hc).mp hh)), if_pos (by omega), Nat.mod_eq_of_lt hc]; rfl

theorem encode16_eq (codes : List Nat) : (∀ c ∈ codes, c < 65536) → encode16 codes = codes.flatMap utf8 := by
  induction codes with
  | nil => intro _; rfl
  | cons c cs ih =>
    intro h
    have hc := h c (by simp)
    rw [encode16, ih (fun x hx => h x (by simp [hx])), List.flatMap_cons]
    unfold utf8
    by_cases h1 : c < 0x80
    · rw [if_pos (show c < 1 <<< 7 from h1), if_pos h1, Nat.mod_eq_of_lt (by omega)]; rfl
    · rw [if_neg (show ¬ c < 1 <<< 7 from h1), if_neg h1]
      by_cases h2 : c < 0x800
      · rw [if_pos (show c < 1 <<< (5+6) from h2), if_pos h2, cont_byte, shr6, or_c0 _ (by omega),
          Nat.mod_eq_of_lt (by omega)]; rfl
      · rw [if_neg (show ¬ c < 1 <<< (5+6) from h2), if_neg h2, if_pos hc, cont_byte, cont_byte, shr6, shr12,
          or_e0 _ (by omega), Nat.mod_eq_of_lt (a := 224 + c / 4096) (by omega)]; rfl

theorem encode32_eq (codes : List Nat) : (∀ c ∈ codes, c < 2097152) → encode32 codes = codes.flatMap utf8 := by
  induction codes with
  | nil => intro _; rfl
  | cons c cs ih =>
    intro h
    have hc := h c (by simp)
    rw [encode32, ih (fun x hx => h x (by simp [hx])), List.flatMap_cons]
    unfold utf8
    by_cases h1 : c < 0x80
    · rw [if_pos (show c < 1 <<< 7 from h1), if_pos h1, Nat.mod_eq_of_lt (by omega)]; rfl
    · rw [if_neg (show ¬ c < 1 <<< 7 from h1), if_neg h1]
      by_cases h2 : c < 0x800
      · rw [if_pos (show c < 1 <<< (5+6) from h2), if_pos h2, cont_byte, shr6, or_c0 _ (by omega),
          Nat.mod_eq_of_lt (by omega)]; rfl
      · rw [if_neg (show ¬ c < 1 <<< (5+6) from h2), if_neg h2]
        by_cases h3 : c < 0x10000
        · rw [if_pos (show c < 1 <<< (4+6+6) from h3), if_pos h3, cont_byte, cont_byte, shr6, shr12,
            or_e0 _ (by omega), Nat.mod_eq_of_lt (a := 224 + c / 4096) (by omega)]; rfl
        · rw [if_neg (show ¬ c < 1 <<< (4+6+6) from h3), if_neg h3, cont_byte, cont_byte, cont_byte, shr6, shr12, shr18,
            or_f0 _ (by omega), Nat.mod_eq_of_lt (a := 240 + c / 262144) (by omega)]; rfl

/-! ### Sizes -/

theorem foldl_sum (f : Nat → Nat) (l : List Nat) : ∀ s, l.foldl (fun size c => size + f c) s = s + (l.map f).sum := by
  induction l with
  | nil => intro s; simp
  | cons c cs ih => intro s; simp only [List.foldl_cons, List.map_cons, List.sum_cons]; rw [ih]; omega

theorem length_flatMap_sum (l : List Nat) : (l.flatMap utf8).length = (l.map (fun c => (utf8 c).length)).sum := by
  induction l with
  | nil => rfl
  | cons c cs ih => simp only [List.flatMap_cons, List.length_append, List.map_cons, List.sum_cons, ih]

theorem calcSize8_eq (codes : List Nat) (h : ∀ c ∈ codes, c < 256) : calcSize8 codes = (codes.flatMap utf8).length := by
  unfold calcSize8
  rw [foldl_sum, length_flatMap_sum, Nat.zero_add]
  congr 1
  apply List.map_congr_left
  intro c hc
  have := h c hc
  unfold utf8
  by_cases h1 : 0x80 ≤ c
  · rw [if_pos ((and80 c this).mpr h1), if_neg (by omega), if_pos (by omega)]; rfl
  · rw [if_neg (fun hh => h1 ((and80 c this).mp hh)), if_pos (by omega)]; rfl

theorem calcSize16_eq (codes : List Nat) (h : ∀ c ∈ codes, c < 65536) :
    calcSize16 codes = (codes.flatMap utf8).length := by
  unfold calcSize16
  rw [foldl_sum, length_flatMap_sum, Nat.zero_add]
  congr 1
  apply List.map_congr_left
  intro c hc
  have := h c hc
  unfold utf8
  by_cases h1 : c < 0x80
  · rw [if_pos (show c < 1 <<< 7 from h1), if_pos h1]; rfl
  · rw [if_neg (show ¬ c < 1 <<< 7 from h1), if_neg h1]
    by_cases h2 : c < 0x800
    · rw [if_pos (show c < 1 <<< (5+6) from h2), if_pos h2]; rfl
    · rw [if_neg (show ¬ c < 1 <<< (5+6) from h2), if_neg h2, if_pos this]; rfl

theorem calcSize32_eq (codes : List Nat) : ∀ s, (∀ c ∈ codes, c < 2097152) →
    calcSize32 s codes = some (s + (codes.flatMap utf8).length) := by
  induction codes with
  | nil => intro s _; rfl
  | cons c cs ih =>
    intro s h
    have hc := h c (by simp)
    have ih' := fun s => ih s (fun x hx => h x (by simp [hx]))
    rw [calcSize32, List.flatMap_cons, List.length_append]
    simp only [ih']
    unfold utf8
    by_cases h1 : c < 0x80
    · rw [if_pos (show c < 1 <<< 7 from h1), if_pos h1]; simp only [List.length_singleton]; congr 1; omega
    · rw [if_neg (show ¬ c < 1 <<< 7 from h1), if_neg h1]
      by_cases h2 : c < 0x800
      · rw [if_pos (show c < 1 <<< (5+6) from h2), if_pos h2]; simp only [List.length_cons, List.length_nil]; congr 1; omega
      · rw [if_neg (show ¬ c < 1 <<< (5+6) from h2), if_neg h2]
        by_cases h3 : c < 0x10000
        · rw [if_pos (show c < 1 <<< (4+6+6) from h3), if_pos h3]; simp only [List.length_cons, List.length_nil]; congr 1; omega
        · rw [if_neg (show ¬ c < 1 <<< (4+6+6) from h3), if_neg h3, if_pos (show c < 1 <<< (3+6+6+6) from hc)]
          simp only [List.length_cons, List.length_nil]; congr 1; omega

theorem calcSize32_none (codes : List Nat) : ∀ s, (∃ c ∈ codes, 2097152 ≤ c) → calcSize32 s codes = none := by
  induction codes with
  | nil => intro s h; obtain ⟨c, hc, _⟩ := h; cases hc
  | cons c cs ih =>
    intro s h
    rw [calcSize32]
    by_cases h0 : 2097152 ≤ c
    · have a1 : ¬ c < 128 := by omega
      have a2 : ¬ c < 2048 := by omega
      have a3 : ¬ c < 65536 := by omega
      have a4 : ¬ c < 2097152 := by omega
      rw [if_neg (show ¬ c < 1 <<< 7 from a1), if_neg (show ¬ c < 1 <<< (5+6) from a2),
        if_neg (show ¬ c < 1 <<< (4+6+6) from a3), if_neg (show ¬ c < 1 <<< (3+6+6+6) from a4)]
    · have : ∃ c ∈ cs, 2097152 ≤ c := by
        obtain ⟨x, hx, hx2⟩ := h
        rcases List.mem_cons.mp hx with rfl | hx
        · omega
        · exact ⟨x, hx, hx2⟩
      rw [ih _ this, ih _ this, ih _ this, ih _ this]
      simp

/-! ### Reading back one encoded character -/

theorem contScan_step (n code x : Nat) (s : List Nat) (h : x < 64) :
    contScan (n + 1) code ((128 + x) :: s) = contScan n (64 * code + x) s := by
  rw [contScan, and_c0 x h, if_neg (by simp), shl6_or]
  congr 1; omega

theorem lead2 (x : Nat) (h : x < 32) : codeLen (192 + x) = 2 ∧ (192 + x) &&& ((0x80 >>> 2) - 1) = x := by
  have : ∀ x : Fin 32, codeLen (192 + x.val) = 2 ∧ (192 + x.val) &&& ((0x80 >>> 2) - 1) = x.val := by decide +kernel
  exact this ⟨x, h⟩
theorem lead3 (x : Nat) (h : x < 16) : codeLen (224 + x) = 3 ∧ (224 + x) &&& ((0x80 >>> 3) - 1) = x := by
  have : ∀ x : Fin 16, codeLen (224 + x.val) = 3 ∧ (224 + x.val) &&& ((0x80 >>> 3) - 1) = x.val := by decide +kernel
  exact this ⟨x, h⟩
theorem lead4 (x : Nat) (h : x < 8) : codeLen (240 + x) = 4 ∧ (240 + x) &&& ((0x80 >>> 4) - 1) = x := by
  have : ∀ x : Fin 8, codeLen (240 + x.val) = 4 ∧ (240 + x.val) &&& ((0x80 >>> 4) - 1) = x.val := by decide +kernel
  exact this ⟨x, h⟩

/-- A multi-byte sequence: its first byte, and the value of the rest. -/
theorem utf8_multi (c : Nat) (h : c < 2097152) (h1 : 0x80 ≤ c) (rest : List Nat) :
    ∃ b s, utf8 c ++ rest = b :: s ∧ 0xC2 ≤ b ∧ codeLen b ≠ 0 ∧ codeLen b - 1 ≤ s.length ∧
      contScan (codeLen b - 1) (b &&& ((0x80 >>> codeLen b) - 1)) s = .ok (c, rest) := by
  unfold utf8
  rw [if_neg (by omega)]
  by_cases h2 : c < 0x800
  · rw [if_pos h2]
    obtain ⟨e1, e2⟩ := lead2 (c / 64) (by omega)
    refine ⟨192 + c / 64, (128 + c % 64) :: rest, rfl, by omega, by omega, by simp [e1], ?_⟩
    rw [e1, e2, contScan_step _ _ _ _ (by omega), contScan]
    congr 2; omega
  · rw [if_neg h2]
    by_cases h3 : c < 0x10000
    · rw [if_pos h3]
      obtain ⟨e1, e2⟩ := lead3 (c / 4096) (by omega)
      refine ⟨224 + c / 4096, (128 + c / 64 % 64) :: (128 + c % 64) :: rest, rfl, by omega, by omega, by simp [e1], ?_⟩
      rw [e1, e2, contScan_step _ _ _ _ (by omega), contScan_step _ _ _ _ (by omega), contScan]
      congr 2; omega
    · rw [if_neg h3]
      obtain ⟨e1, e2⟩ := lead4 (c / 262144) (by omega)
      refine ⟨240 + c / 262144, (128 + c / 4096 % 64) :: (128 + c / 64 % 64) :: (128 + c % 64) :: rest, rfl, by omega,
        by omega, by simp [e1], ?_⟩
      rw [e1, e2, contScan_step _ _ _ _ (by omega), contScan_step _ _ _ _ (by omega), contScan_step _ _ _ _ (by omega),
        contScan]
      congr 2; omega

theorem scanChar_utf8 (c m : Nat) (h : c < 2097152) (rest : List Nat) :
    scanChar false m (utf8 c ++ rest) = .ok (if 0x80 ≤ c ∧ c > m then c else m, rest) := by
  by_cases h1 : c < 0x80
  · unfold utf8
    rw [if_pos h1, if_neg (by omega)]
    exact scanChar_plain false m c rest ⟨h1, by simp⟩
  · obtain ⟨b, s, e, hb, h0, hl, hc⟩ := utf8_multi c h (by omega) rest
    rw [e, scanChar_cons, if_neg (by omega), if_neg (by omega), hc]
    simp only [scanTail, Bool.false_eq_true, false_and, if_false]
    congr 2
    by_cases hm : c > m
    · rw [if_pos hm, if_pos ⟨by omega, hm⟩]
    · rw [if_neg hm, if_neg (fun hh => hm hh.2)]

theorem decodeChar_utf8 (c width : Nat) (h : c < 2097152) (hw : 6 ≤ width) (hcw : c < 2 ^ width) (rest : List Nat) :
    decodeChar false width (utf8 c ++ rest) = .ok (c, rest) := by
  by_cases h1 : c < 0x80
  · unfold utf8
    rw [if_pos h1]
    show decodeChar false width (c :: rest) = _
    rw [decodeChar_cons, if_neg (by omega)]
    simp [decodeTail]
  · obtain ⟨b, s, e, hb, h0, hl, hc⟩ := utf8_multi c h (by omega) rest
    have h3 := codeLen_ge2 b (by omega) h0
    have h5 := first_small b (by omega) h0
    have hp : (2:Nat) ^ 6 ≤ 2 ^ width := Nat.pow_le_pow_right (by decide) hw
    have h4 := contDec_eq width _ _ _ _ _ hc
    rw [Nat.mod_eq_of_lt (a := b &&& _) (by omega), Nat.mod_eq_of_lt hcw] at h4
    rw [e, decodeChar_cons, if_pos (by omega), if_neg (by omega), h4]
    simp [decodeTail]

/-- The largest code of at least 0x80, or 0: what the scanner reports. -/
def maxMulti : Nat → List Nat → Nat
  | m, [] => m
  | m, c :: cs => maxMulti (if 0x80 ≤ c ∧ c > m then c else m) cs

theorem utf8_ne_nil (c : Nat) : 0 < (utf8 c).length := by
  unfold utf8; split
  · simp
  · split
    · simp
    · split <;> simp

theorem slow_utf8 (codes : List Nat) : ∀ fuel c0 m0, (∀ c ∈ codes, c < 2097152) →
    (codes.flatMap utf8).length < fuel →
    slowLoop false fuel c0 m0 (codes.flatMap utf8) = .ok (c0 + codes.length, maxMulti m0 codes) := by
  induction codes with
  | nil =>
    intro fuel c0 m0 _ hf
    obtain ⟨f, rfl⟩ : ∃ k, fuel = k + 1 := ⟨fuel - 1, by omega⟩
    rfl
  | cons c cs ih =>
    intro fuel c0 m0 h hf
    obtain ⟨f, rfl⟩ : ∃ k, fuel = k + 1 := ⟨fuel - 1, by omega⟩
    have hpos := utf8_ne_nil c
    rw [List.flatMap_cons] at hf ⊢
    rw [List.length_append] at hf
    rw [slowLoop, if_neg (by intro hh; have := congrArg List.length hh; rw [List.length_append, List.length_nil] at this; omega),
      scanChar_utf8 c m0 (h c (by simp))]
    simp only
    rw [ih f _ _ (fun x hx => h x (by simp [hx])) (by omega)]
    simp only [maxMulti, List.length_cons]
    congr 2; omega

theorem decode_utf8 (width : Nat) (hw : 6 ≤ width) (codes : List Nat) : ∀ fuel,
    (∀ c ∈ codes, c < 2097152 ∧ c < 2 ^ width) → (codes.flatMap utf8).length < fuel →
    decodeLoop false width fuel (codes.flatMap utf8) = .ok codes := by
  induction codes with
  | nil =>
    intro fuel _ hf
    obtain ⟨f, rfl⟩ : ∃ k, fuel = k + 1 := ⟨fuel - 1, by omega⟩
    rfl
  | cons c cs ih =>
    intro fuel h hf
    obtain ⟨f, rfl⟩ : ∃ k, fuel = k + 1 := ⟨fuel - 1, by omega⟩
    have hpos := utf8_ne_nil c
    rw [List.flatMap_cons] at hf ⊢
    rw [List.length_append] at hf
    rw [decodeLoop, if_neg (by intro hh; have := congrArg List.length hh; rw [List.length_append, List.length_nil] at this; omega),
      decodeChar_utf8 c width (h c (by simp)).1 hw (h c (by simp)).2]
    simp only
    rw [ih f (fun x hx => h x (by simp [hx])) (by omega)]

theorem maxMulti_ge (codes : List Nat) : ∀ m, m ≤ maxMulti m codes ∧ ∀ c ∈ codes, 0x80 ≤ c → c ≤ maxMulti m codes := by
  induction codes with
  | nil => intro m; exact ⟨Nat.le_refl _, by simp⟩
  | cons c cs ih =>
    intro m
    rw [maxMulti]
    obtain ⟨h1, h2⟩ := ih (if 0x80 ≤ c ∧ c > m then c else m)
    have hm : m ≤ (if 0x80 ≤ c ∧ c > m then c else m) := by split <;> omega
    have hc : 0x80 ≤ c → c ≤ (if 0x80 ≤ c ∧ c > m then c else m) := by intro h; split <;> omega
    refine ⟨by omega, ?_⟩
    intro x hx h80
    rcases List.mem_cons.mp hx with rfl | hx
    · have := hc h80; omega
    · exact h2 x hx h80

theorem maxMulti_le (codes : List Nat) : ∀ m B, m ≤ B → (∀ c ∈ codes, c ≤ B) → maxMulti m codes ≤ B := by
  induction codes with
  | nil => intro m B h _; exact h
  | cons c cs ih =>
    intro m B h hc
    rw [maxMulti]
    apply ih _ _ _ (fun x hx => hc x (by simp [hx]))
    have := hc c (by simp)
    split <;> omega

theorem utf8_bytes (c : Nat) (h : c < 2097152) : ∀ b ∈ utf8 c, b < 256 := by
  unfold utf8
  split
  · simp; omega
  · split
    · simp; omega
    · split
      · simp; omega
      · simp; omega

theorem flatMap_ascii (codes : List Nat) : (∀ c ∈ codes, c < 0x80) → codes.flatMap utf8 = codes := by
  induction codes with
  | nil => intro _; rfl
  | cons c cs ih =>
    intro h
    rw [List.flatMap_cons, ih (fun x hx => h x (by simp [hx]))]
    unfold utf8; rw [if_pos (h c (by simp))]; rfl

/-! ### Bounds of scanned values -/

theorem escBraces_bound (s : List Nat) : ∀ g c s', g ≤ 0xFFFFFF → escBraces g s = .ok (.code c, s') → c ≤ 0xFFFFFF := by
  induction s with
  | nil => intro g c s' _ h; simp [escBraces] at h
  | cons x s ih =>
    intro g c s' hg h
    unfold escBraces at h
    split at h
    · simp only [Out.ok.injEq, Prod.mk.injEq, EscCode.code.injEq] at h; omega
    · split at h
      · simp at h
      · split at h
        · simp at h
        · split at h
          · simp at h
          · exact ih _ _ _ (by omega) h

theorem escMap_bound (e c : Nat) (h : escMap e = .char c) : c < 256 := by
  unfold escMap at h
  repeat' split at h
  all_goals first
    | (simp only [Esc.char.injEq] at h; omega)
    | cases h

theorem parseEsc_bound (s : List Nat) (c : Nat) (s' : List Nat) (h : parseEsc s = .ok (.code c, s')) : c ≤ 0xFFFFFF := by
  unfold parseEsc at h
  cases s with
  | nil => simp at h
  | cons e rest =>
    simp only at h
    cases hm : escMap e with
    | invalid => rw [hm] at h; simp at h
    | interpolate => rw [hm] at h; simp at h
    | zero => rw [hm] at h; simp at h; omega
    | char x =>
      rw [hm] at h
      have := escMap_bound e x hm
      simp only [Out.ok.injEq, Prod.mk.injEq, EscCode.code.injEq] at h; omega
    | hex =>
      rw [hm] at h
      match rest with
      | [] => simp at h
      | [a] => simp at h
      | a :: b :: rest2 =>
        simp only at h
        split at h
        · exact escBraces_bound _ 0 c s' (by omega) h
        · split at h
          · simp only [Out.ok.injEq, Prod.mk.injEq, EscCode.code.injEq] at h; omega
          · simp at h

theorem contScan_bound (n : Nat) : ∀ code s c s', contScan n code s = .ok (c, s') → c < (code + 1) * 64 ^ n := by
  induction n with
  | zero =>
    intro code s c s' h
    simp only [contScan, Out.ok.injEq, Prod.mk.injEq] at h; simp; omega
  | succ n ih =>
    intro code s c s' h
    cases s with
    | nil => simp [contScan] at h
    | cons b s =>
      unfold contScan at h
      split at h
      · cases h
      · have h1 := ih _ _ _ _ h
        rw [shl6_or] at h1
        have h2 : b % 64 < 64 := Nat.mod_lt _ (by decide)
        have h3 : (64 * code + b % 64 + 1) * 64 ^ n ≤ (64 * (code + 1)) * 64 ^ n := Nat.mul_le_mul_right _ (by omega)
        have h4 : (64 * (code + 1)) * 64 ^ n = (code + 1) * 64 ^ (n + 1) := by
          rw [Nat.pow_succ, Nat.mul_comm 64, Nat.mul_assoc, Nat.mul_comm 64]
        omega

theorem scanTail_bound (esc : Bool) (code m : Nat) (s : List Nat) (m' : Nat) (s' : List Nat)
    (h : scanTail esc code m s = .ok (m', s')) (hm : m ≤ 0xFFFFFF) : m' ≤ 0xFFFFFF := by
  unfold scanTail at h
  split at h
  · obtain ⟨r, s1, e, _⟩ := parseEsc_spec s
    rw [e] at h
    cases r with
    | invalidEsc => cases h
    | notEsc => simp only [Out.ok.injEq, Prod.mk.injEq] at h; omega
    | code x =>
      have := parseEsc_bound s x s1 e
      simp only [Out.ok.injEq, Prod.mk.injEq] at h
      have h1 := h.1
      split at h1 <;> omega
  · simp only [Out.ok.injEq, Prod.mk.injEq] at h; omega

theorem scanChar_bound (esc : Bool) (m : Nat) (str : List Nat) (m' : Nat) (s' : List Nat)
    (h : scanChar esc m str = .ok (m', s')) (hm : m ≤ 0xFFFFFF) : m' ≤ 0xFFFFFF := by
  cases str with
  | nil => simp [scanChar] at h
  | cons c s =>
    rw [scanChar_cons] at h
    split at h
    · exact scanTail_bound _ _ _ _ _ _ h hm
    · split at h
      · cases h
      · rename_i h1 h2
        have h3 := codeLen_ge2 c (by omega) (by omega)
        have h5 := first_small c (by omega) (by omega)
        rcases contScan_spec (codeLen c - 1) (c &&& ((0x80 >>> codeLen c) - 1)) s (by omega) with e | ⟨code, s1, e, _, _⟩
        · rw [e] at h; cases h
        · rw [e] at h
          have h6 := contScan_bound _ _ _ _ _ e
          have h7 : (64:Nat) ^ (codeLen c - 1) ≤ 64 ^ 3 := Nat.pow_le_pow_right (by decide) (by omega)
          have h8 : ((c &&& ((0x80 >>> codeLen c) - 1)) + 1) * 64 ^ (codeLen c - 1) ≤ 32 * 64 ^ 3 :=
            Nat.mul_le_mul (by omega) h7
          refine scanTail_bound _ _ _ _ _ _ h ?_
          split <;> omega

theorem slowLoop_bound (esc : Bool) : ∀ fuel c0 m0 str n m, slowLoop esc fuel c0 m0 str = .ok (n, m) →
    m0 ≤ 0xFFFFFF → m ≤ 0xFFFFFF := by
  intro fuel
  induction fuel with
  | zero => intro c0 m0 str n m h; simp [slowLoop] at h
  | succ fuel ih =>
    intro c0 m0 str n m h hm0
    unfold slowLoop at h
    by_cases he : str = []
    · rw [if_pos he] at h
      simp only [Out.ok.injEq, Prod.mk.injEq] at h; omega
    · rw [if_neg he] at h
      rcases scanChar_spec esc m0 str he with e | ⟨m', s', e, _, _, hm⟩
      · rw [e] at h; cases h
      · rw [e] at h
        exact ih _ _ _ _ _ h (scanChar_bound _ _ _ _ _ e hm0)

theorem slowLoop_count (esc : Bool) : ∀ fuel c0 m0 str n m, slowLoop esc fuel c0 m0 str = .ok (n, m) →
    n ≤ c0 + str.length := by
  intro fuel
  induction fuel with
  | zero => intro c0 m0 str n m h; simp [slowLoop] at h
  | succ fuel ih =>
    intro c0 m0 str n m h
    unfold slowLoop at h
    by_cases he : str = []
    · rw [if_pos he] at h
      simp only [Out.ok.injEq, Prod.mk.injEq] at h; omega
    · rw [if_neg he] at h
      rcases scanChar_spec esc m0 str he with e | ⟨m', s', e, _, hl, _⟩
      · rw [e] at h; cases h
      · rw [e] at h
        have := ih _ _ _ _ _ h
        omega

theorem kind_width (m : Nat) (hm : m ≤ 0xFFFFFF) :
    max m 0x7F < 2 ^ (kindFromMax m).width ∧ 6 ≤ (kindFromMax m).width := by
  unfold kindFromMax
  split
  · exact ⟨show max m 0x7F < 256 by omega, show 6 ≤ 8 by omega⟩
  · split
    · exact ⟨show max m 0x7F < 256 by omega, show 6 ≤ 8 by omega⟩
    · split
      · exact ⟨show max m 0x7F < 65536 by omega, show 6 ≤ 16 by omega⟩
      · exact ⟨show max m 0x7F < 4294967296 by omega, show 6 ≤ 32 by omega⟩

end Verif.Utf8
