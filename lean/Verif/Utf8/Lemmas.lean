import Verif.Utf8.Str
namespace Verif.Utf8

/-! ### Bit arithmetic -/

theorem or_mul (i a b : Nat) (h : b < 2 ^ i) : 2 ^ i * a ||| b = 2 ^ i * a + b :=
  (Nat.two_pow_add_eq_or_of_lt h a).symm

theorem and3f (b : Nat) : b &&& 0x3F = b % 64 := Nat.and_two_pow_sub_one_eq_mod b 6

theorem shl6_or (c b : Nat) : (c <<< 6) ||| (b &&& 0x3F) = 64 * c + b % 64 := by
  rw [and3f, Nat.shiftLeft_eq, Nat.mul_comm]
  exact or_mul 6 c (b % 64) (Nat.mod_lt _ (by decide))

theorem and_c0 (x : Nat) (h : x < 64) : (0x80 + x) &&& 0xC0 = 0x80 := by
  have : ∀ x : Fin 64, (0x80 + x.val) &&& 0xC0 = 0x80 := by decide +kernel
  exact this ⟨x, h⟩

/-! ### Escapes consume input and stay in bounds -/

theorem escBraces_spec (s : List Nat) : ∀ g, s ≠ [] → ∃ r s', escBraces g s = .ok (r, s') ∧ s' <:+ s := by
  induction s with
  | nil => intro g h; exact absurd rfl h
  | cons c s ih =>
    intro g _
    have hs : s <:+ c :: s := List.suffix_cons c s
    unfold escBraces
    by_cases h1 : c = 125
    · rw [if_pos h1]; exact ⟨_, _, rfl, hs⟩
    · rw [if_neg h1]
      by_cases h2 : s = []
      · rw [if_pos h2]; exact ⟨_, _, rfl, hs⟩
      · rw [if_neg h2]
        by_cases h3 : hexMap c > 15
        · rw [if_pos h3]; exact ⟨_, _, rfl, hs⟩
        · rw [if_neg h3]
          by_cases h4 : g * 16 + hexMap c > 0x00FFFFFF
          · rw [if_pos h4]; exact ⟨_, _, rfl, hs⟩
          · rw [if_neg h4]
            obtain ⟨r, s', e, hl⟩ := ih (g * 16 + hexMap c) h2
            exact ⟨r, s', e, hl.trans hs⟩

theorem parseEsc_spec (s : List Nat) : ∃ r s', parseEsc s = .ok (r, s') ∧ s' <:+ s := by
  unfold parseEsc
  cases s with
  | nil => exact ⟨_, _, rfl, List.suffix_refl _⟩
  | cons e rest =>
    have hs : rest <:+ e :: rest := List.suffix_cons e rest
    simp only
    cases escMap e with
    | invalid => exact ⟨_, _, rfl, List.suffix_refl _⟩
    | interpolate => exact ⟨_, _, rfl, List.suffix_refl _⟩
    | zero => exact ⟨_, _, rfl, hs⟩
    | char c => exact ⟨_, _, rfl, hs⟩
    | hex =>
      simp only
      match rest, hs with
      | [], hs => exact ⟨_, _, rfl, hs⟩
      | [a], hs => exact ⟨_, _, rfl, hs⟩
      | a :: b :: rest2, hs =>
        have h2 : rest2 <:+ e :: a :: b :: rest2 := ((List.suffix_cons b rest2).trans (List.suffix_cons a _)).trans hs
        simp only
        split
        · obtain ⟨r, s', e, hl⟩ := escBraces_spec (b :: rest2) 0 (by simp)
          exact ⟨r, s', e, (hl.trans (List.suffix_cons a _)).trans hs⟩
        · split
          · exact ⟨_, _, rfl, h2⟩
          · exact ⟨_, _, rfl, h2⟩

theorem contScan_spec (n : Nat) : ∀ code s, n ≤ s.length →
    contScan n code s = .err ∨ ∃ c s', contScan n code s = .ok (c, s') ∧ s'.length + n = s.length ∧ s' <:+ s := by
  induction n with
  | zero => intro code s _; right; exact ⟨_, _, rfl, rfl, List.suffix_refl _⟩
  | succ n ih =>
    intro code s h
    cases s with
    | nil => simp at h
    | cons b s =>
      unfold contScan
      split
      · left; rfl
      · rcases ih ((code <<< 6) ||| (b &&& 0x3F)) s (by simpa using h) with h1 | ⟨c, s', e, hl, hs⟩
        · left; exact h1
        · right; exact ⟨c, s', e, by simp; omega, hs.trans (List.suffix_cons b s)⟩

/-- The tail of `scanChar`: an escape sequence after a backslash. -/
def scanTail (esc : Bool) (code maxC : Nat) (s : List Nat) : Out (Nat × List Nat) :=
  if esc ∧ code = 92 then
    match parseEsc s with
    | .err => .err
    | .ub => .ub
    | .ok (.invalidEsc, _) => .err
    | .ok (.notEsc, s) => .ok (maxC, s)
    | .ok (.code c, s) => .ok (if c > maxC then c else maxC, s)
  else .ok (maxC, s)

theorem scanChar_cons (esc : Bool) (m c : Nat) (s : List Nat) :
    scanChar esc m (c :: s) =
      if c < 0x80 then scanTail esc c m s
      else if codeLen c = 0 ∨ codeLen c - 1 > s.length ∨ c < 0xC2 then .err
      else
        match contScan (codeLen c - 1) (c &&& ((0x80 >>> codeLen c) - 1)) s with
        | .ok (code, s) => scanTail esc code (if code > m then code else m) s
        | .err => .err
        | .ub => .ub := by
  simp only [scanChar]
  by_cases h1 : c < 0x80
  · simp only [h1, if_true]; rfl
  · simp only [h1, if_false]
    by_cases h2 : codeLen c = 0 ∨ codeLen c - 1 > s.length ∨ c < 0xC2
    · simp only [h2, if_true]
    · simp only [h2, if_false]
      cases contScan (codeLen c - 1) (c &&& ((0x80 >>> codeLen c) - 1)) s with
      | ok p => cases p; rfl
      | err => rfl
      | ub => rfl

theorem scanTail_spec (esc : Bool) (code m : Nat) (s : List Nat) :
    scanTail esc code m s = .err ∨ ∃ m' s', scanTail esc code m s = .ok (m', s') ∧ s' <:+ s ∧ m ≤ m' := by
  unfold scanTail
  split
  · obtain ⟨r, s', e, hl'⟩ := parseEsc_spec s
    rw [e]
    cases r with
    | invalidEsc => left; rfl
    | notEsc => right; exact ⟨_, _, rfl, hl', Nat.le_refl _⟩
    | code x => right; refine ⟨_, _, rfl, hl', ?_⟩; split <;> omega
  · right; exact ⟨_, _, rfl, List.suffix_refl _, Nat.le_refl _⟩

theorem suffix_cons_lt {s' s : List Nat} (c : Nat) (h : s' <:+ s) : s'.length < (c :: s).length := by
  have := h.length_le; simp; omega

/-- A scanned character never leaves the input, and makes progress. -/
theorem scanChar_spec (esc : Bool) (m : Nat) (str : List Nat) (h : str ≠ []) :
    scanChar esc m str = .err ∨
      ∃ m' s', scanChar esc m str = .ok (m', s') ∧ s' <:+ str ∧ s'.length < str.length ∧ m ≤ m' := by
  cases str with
  | nil => exact absurd rfl h
  | cons c s =>
    have hc := List.suffix_cons c s
    rw [scanChar_cons]
    split
    · rcases scanTail_spec esc c m s with e | ⟨m', s', e, hs, hm⟩
      · left; exact e
      · right; exact ⟨m', s', e, hs.trans hc, suffix_cons_lt c hs, hm⟩
    · split
      · left; rfl
      · rename_i h2
        rcases contScan_spec (codeLen c - 1) (c &&& ((0x80 >>> codeLen c) - 1)) s (by omega) with e | ⟨code, s', e, hl, hs⟩
        · rw [e]; left; rfl
        · rw [e]
          simp only
          rcases scanTail_spec esc code (if code > m then code else m) s' with e | ⟨m', s'', e, hs', hm⟩
          · left; exact e
          · right; refine ⟨m', s'', e, (hs'.trans hs).trans hc, suffix_cons_lt c (hs'.trans hs), ?_⟩
            split at hm <;> omega

/-! ### The scan without its fast path -/

/-- Character-by-character scan. -/
def slowLoop (esc : Bool) : Nat → Nat → Nat → List Nat → Out (Nat × Nat)
  | 0, _, _, _ => .ub
  | fuel + 1, count, maxC, str =>
    if str = [] then .ok (count, maxC)
    else
      match scanChar esc maxC str with
      | .ok (maxC, str) => slowLoop esc fuel (count + 1) maxC str
      | .err => .err
      | .ub => .ub

theorem slowLoop_fuel (esc : Bool) : ∀ f1 f2 count m str, str.length < f1 → str.length < f2 →
    slowLoop esc f1 count m str = slowLoop esc f2 count m str := by
  intro f1
  induction f1 with
  | zero => intro f2 count m str h; omega
  | succ f1 ih =>
    intro f2 count m str h1 h2
    obtain ⟨f2, rfl⟩ : ∃ k, f2 = k + 1 := ⟨f2 - 1, by omega⟩
    unfold slowLoop
    by_cases he : str = []
    · rw [if_pos he, if_pos he]
    · rw [if_neg he, if_neg he]
      rcases scanChar_spec esc m str he with e | ⟨m', s', e, _, hl, _⟩
      · rw [e]
      · rw [e]
        exact ih f2 _ _ _ (by omega) (by omega)

/-- A plain character: one byte, no escape. -/
def plain (esc : Bool) (b : Nat) : Prop := b < 0x80 ∧ (esc = true → b ≠ 92)

theorem scanChar_plain (esc : Bool) (m b : Nat) (s : List Nat) (h : plain esc b) :
    scanChar esc m (b :: s) = .ok (m, s) := by
  obtain ⟨h1, h2⟩ := h
  simp only [scanChar, h1, if_true]
  rw [if_neg]
  rintro ⟨he, hb⟩
  exact h2 he hb

theorem slowLoop_plain (esc : Bool) (p : List Nat) : ∀ f count m s, (∀ b ∈ p, plain esc b) →
    slowLoop esc (f + p.length) count m (p ++ s) = slowLoop esc f (count + p.length) m s := by
  induction p with
  | nil => intro f count m s _; rfl
  | cons b p ih =>
    intro f count m s h
    rw [List.length_cons, ← Nat.add_assoc, List.cons_append]
    conv => lhs; unfold slowLoop
    rw [if_neg (by simp), scanChar_plain esc m b _ (h b (by simp))]
    simp only
    rw [ih f (count + 1) m s (fun x hx => h x (by simp [hx]))]
    congr 1; omega

/-! ### Words -/

theorem and_split (a b c d : Nat) (ha : a < 256) (hc : c < 256) :
    (a + 256 * b) &&& (c + 256 * d) = (a &&& c) + 256 * (b &&& d) := by
  have hm : ((a + 256 * b) &&& (c + 256 * d)) % 2 ^ 8 = a &&& c := by
    rw [Nat.and_mod_two_pow]; congr 1 <;> omega
  have hd : ((a + 256 * b) &&& (c + 256 * d)) / 2 ^ 8 = b &&& d := by
    rw [Nat.and_div_two_pow]; congr 1 <;> omega
  omega

theorem xor_split (a b c d : Nat) (ha : a < 256) (hc : c < 256) :
    (a + 256 * b) ^^^ (c + 256 * d) = (a ^^^ c) + 256 * (b ^^^ d) := by
  have hm : ((a + 256 * b) ^^^ (c + 256 * d)) % 2 ^ 8 = a ^^^ c := by
    rw [Nat.xor_mod_two_pow]; congr 1 <;> omega
  have hd : ((a + 256 * b) ^^^ (c + 256 * d)) / 2 ^ 8 = b ^^^ d := by
    rw [Nat.xor_div_two_pow]; congr 1 <;> omega
  omega

theorem high_bits_zero (bs : List Nat) : (∀ b ∈ bs, b < 256) →
    wordOf bs &&& rep 0x80 bs.length = 0 → ∀ b ∈ bs, b < 128 := by
  induction bs with
  | nil => intro _ _ b hb; cases hb
  | cons x bs ih =>
    intro hb h
    have hx := hb x (by simp)
    simp only [wordOf, List.length_cons, rep] at h
    rw [and_split _ _ _ _ hx (by decide)] at h
    have h1 : x &&& 0x80 = 0 := by omega
    have h2 : wordOf bs &&& rep 0x80 bs.length = 0 := by omega
    have : ∀ x : Fin 256, x.val &&& 0x80 = 0 → x.val < 128 := by decide +kernel
    intro b hb'
    rcases List.mem_cons.mp hb' with rfl | hb'
    · exact this ⟨b, hx⟩ h1
    · exact ih (fun y hy => hb y (by simp [hy])) h2 b hb'

theorem xor23 (x : Nat) (h : x < 128) : (x ^^^ 0x23) < 128 ∧ (((x ^^^ 0x23) + 1) &&& 0x80 = 0 → x ≠ 92) := by
  have : ∀ x : Fin 128, (x.val ^^^ 0x23) < 128 ∧ (((x.val ^^^ 0x23) + 1) &&& 0x80 = 0 → x.val ≠ 92) := by
    decide +kernel
  exact this ⟨x, h⟩

/-- The addition in the backslash test carries nothing from byte to byte. -/
theorem sum_lt (bs : List Nat) : (∀ b ∈ bs, b < 128) →
    (wordOf bs ^^^ rep 0x23 bs.length) + rep 1 bs.length < 256 ^ bs.length ∨ bs = [] := by
  induction bs with
  | nil => intro _; right; rfl
  | cons x bs ih =>
    intro hb
    left
    have hx := hb x (by simp)
    simp only [wordOf, List.length_cons, rep]
    rw [xor_split _ _ _ _ (by omega) (by decide)]
    have h1 := (xor23 x hx).1
    rw [Nat.pow_succ]
    rcases ih (fun y hy => hb y (by simp [hy])) with h | h
    · omega
    · subst h; simp [wordOf, rep]; omega

theorem no_backslash (bs : List Nat) : (∀ b ∈ bs, b < 128) →
    ((wordOf bs ^^^ rep 0x23 bs.length) + rep 1 bs.length) &&& rep 0x80 bs.length = 0 → ∀ b ∈ bs, b ≠ 92 := by
  induction bs with
  | nil => intro _ _ b hb; cases hb
  | cons x bs ih =>
    intro hb h
    have hx := hb x (by simp)
    have h1 := xor23 x hx
    simp only [wordOf, List.length_cons, rep] at h
    rw [xor_split _ _ _ _ (by omega) (by decide)] at h
    rw [show (x ^^^ 35) + 256 * (wordOf bs ^^^ rep 35 bs.length) + (1 + 256 * rep 1 bs.length) =
      ((x ^^^ 35) + 1) + 256 * ((wordOf bs ^^^ rep 35 bs.length) + rep 1 bs.length) by omega] at h
    rw [and_split _ _ _ _ (by omega) (by decide)] at h
    intro b hb'
    rcases List.mem_cons.mp hb' with rfl | hb'
    · exact h1.2 (by omega)
    · exact ih (fun y hy => hb y (by simp [hy])) (by omega) b hb'

theorem word_plain (esc : Bool) (bs : List Nat) (hb : ∀ b ∈ bs, b < 256)
    (h : wordSpecial esc bs.length (wordOf bs) = false) : ∀ b ∈ bs, plain esc b := by
  unfold wordSpecial at h
  rw [Bool.or_eq_false_iff] at h
  obtain ⟨h1, h2⟩ := h
  have h1' : wordOf bs &&& rep 0x80 bs.length = 0 := by simpa using h1
  have hlt := high_bits_zero bs hb h1'
  intro b hbm
  refine ⟨hlt b hbm, ?_⟩
  intro he
  subst he
  have h2' : ((wordOf bs ^^^ rep 0x23 bs.length) + rep 1 bs.length) % 256 ^ bs.length &&& rep 0x80 bs.length = 0 := by
    simpa using h2
  rcases sum_lt bs hlt with h | h
  · rw [Nat.mod_eq_of_lt h] at h2'
    exact no_backslash bs hlt h2' b hbm
  · subst h; cases hbm

theorem fastPath_spec (esc : Bool) (w : Nat) : ∀ fuel count (str : List Nat), (∀ b ∈ str, b < 256) →
    ∃ p s, str = p ++ s ∧ fastPath esc w fuel count str = (count + p.length, s) ∧ ∀ b ∈ p, plain esc b := by
  intro fuel
  induction fuel with
  | zero => intro count str _; exact ⟨[], str, rfl, rfl, by simp⟩
  | succ fuel ih =>
    intro count str hb
    unfold fastPath
    by_cases h : str.length ≥ w
    · rw [if_pos h]
      cases hs : wordSpecial esc w (wordOf (str.take w)) with
      | true => exact ⟨[], str, rfl, rfl, by simp⟩
      | false =>
        simp only [Bool.false_eq_true, if_false]
        obtain ⟨p, s, e1, e2, hp⟩ := ih (count + w) (str.drop w) (fun b hb' => hb b (List.mem_of_mem_drop hb'))
        have hlen : (str.take w).length = w := by simp; omega
        refine ⟨str.take w ++ p, s, ?_, ?_, ?_⟩
        · rw [List.append_assoc, ← e1, List.take_append_drop]
        · rw [e2, List.length_append, hlen]; congr 1; omega
        · intro b hb'
          rcases List.mem_append.mp hb' with hb' | hb'
          · refine word_plain esc (str.take w) (fun x hx => hb x (List.mem_of_mem_take hx)) ?_ b hb'
            rw [hlen]; exact hs
          · exact hp b hb'
    · rw [if_neg h]; exact ⟨[], str, rfl, rfl, by simp⟩

theorem scanLoop_eq (esc : Bool) (w : Nat) (al : Nat → Bool) : ∀ fuel count m (str : List Nat),
    (∀ b ∈ str, b < 256) → str.length < fuel →
    scanLoop esc w al fuel count m str = slowLoop esc fuel count m str := by
  intro fuel
  induction fuel with
  | zero => intro count m str _ h; omega
  | succ fuel ih =>
    intro count m str hb hl
    unfold scanLoop
    by_cases he : str = []
    · rw [if_pos he, slowLoop, if_pos he]
    · rw [if_neg he]
      have key : ∀ (p s : List Nat), str = p ++ s → (∀ b ∈ p, plain esc b) →
          (if s = [] then Out.ok (count + p.length, m)
            else match scanChar esc m s with
              | .ok (maxC, str) => scanLoop esc w al fuel (count + p.length + 1) maxC str
              | .err => .err
              | .ub => .ub) = slowLoop esc (fuel + 1) count m str := by
        intro p s hps hp
        subst hps
        have hlen : p.length + s.length < fuel + 1 := by simpa using hl
        rw [show fuel + 1 = (fuel + 1 - p.length) + p.length by omega, slowLoop_plain esc p _ _ _ _ hp]
        rw [show fuel + 1 - p.length = (fuel - p.length) + 1 by omega]
        rw [slowLoop]
        by_cases hs : s = []
        · rw [if_pos hs, if_pos hs]
        · rw [if_neg hs, if_neg hs]
          rcases scanChar_spec esc m s hs with e | ⟨m', s', e, hsuf, hl', _⟩
          · rw [e]
          · simp only [e]
            rw [ih _ _ s' ?_ (by omega)]
            · exact slowLoop_fuel esc _ _ _ _ _ (by omega) (by omega)
            · intro b hb'; exact hb b (List.mem_append.mpr (Or.inr (hsuf.subset hb')))
      cases hal : al str.length with
      | true =>
        simp only [if_true]
        obtain ⟨p, s, e1, e2, hp⟩ := fastPath_spec esc w str.length count str hb
        rw [e2]
        exact key p s e1 hp
      | false =>
        simp only [Bool.false_eq_true, if_false]
        exact key [] str rfl (by simp)

theorem getLen_eq (esc : Bool) (w : Nat) (al : Nat → Bool) (str : List Nat) (hb : ∀ b ∈ str, b < 256) :
    getLen esc w al str = slowLoop esc (str.length + 1) 0 0 str :=
  scanLoop_eq esc w al _ 0 0 str hb (Nat.lt_succ_self _)

/-! ### Scanner against decoder -/

theorem mod_step (width c b : Nat) :
    (((c % 2 ^ width) <<< 6) ||| (b &&& 0x3F)) % 2 ^ width = ((c <<< 6) ||| (b &&& 0x3F)) % 2 ^ width := by
  rw [shl6_or, shl6_or]
  rw [Nat.add_mod, Nat.mul_mod, Nat.mod_mod, ← Nat.mul_mod, ← Nat.add_mod]

theorem contDec_eq (width : Nat) (n : Nat) : ∀ code s c s', contScan n code s = .ok (c, s') →
    contDec width n (code % 2 ^ width) s = .ok (c % 2 ^ width, s') := by
  induction n with
  | zero =>
    intro code s c s' h
    simp only [contScan, Out.ok.injEq, Prod.mk.injEq] at h
    rw [contDec, h.1, h.2]
  | succ n ih =>
    intro code s c s' h
    cases s with
    | nil => simp [contScan] at h
    | cons b s =>
      unfold contScan at h
      unfold contDec
      by_cases hb : b &&& 0xC0 ≠ 0x80
      · rw [if_pos hb] at h; cases h
      · rw [if_neg hb] at h ⊢
        rw [mod_step width code b]
        exact ih _ s c s' h

/-- The tail of `decodeChar`. -/
def decodeTail (esc : Bool) (width : Nat) (c : Nat) (s : List Nat) : Out (Nat × List Nat) :=
  if esc ∧ c = 92 then
    match parseEsc s with
    | .err => .err
    | .ub => .ub
    | .ok (.invalidEsc, _) => .ub
    | .ok (.notEsc, s) => .ok (c, s)
    | .ok (.code c32, s) => if c32 < 2 ^ width then .ok (c32, s) else .ub
  else .ok (c, s)

theorem decodeChar_cons (esc : Bool) (width c : Nat) (s : List Nat) :
    decodeChar esc width (c :: s) =
      if c > 0x7F then
        if codeLen c < 2 then .ub
        else match contDec width (codeLen c - 1) (c &&& ((0x80 >>> codeLen c) - 1)) s with
          | .ok (c, s) => decodeTail esc width c s
          | .err => .err
          | .ub => .ub
      else decodeTail esc width c s := by
  simp only [decodeChar]
  by_cases h1 : c > 0x7F
  · simp only [h1, if_true]
    by_cases h2 : codeLen c < 2
    · simp only [h2, if_true]
    · simp only [h2, if_false]
      cases contDec width (codeLen c - 1) (c &&& ((0x80 >>> codeLen c) - 1)) s with
      | ok p => cases p; rfl
      | err => rfl
      | ub => rfl
  · simp only [h1, if_false]; rfl

theorem tail_agree (esc : Bool) (width code m : Nat) (s : List Nat) (m' : Nat) (s' : List Nat) (M : Nat)
    (h : scanTail esc code m s = .ok (m', s')) (hm : m' ≤ M) (hc : code ≤ M) (hM : M < 2 ^ width) :
    ∃ c, decodeTail esc width code s = .ok (c, s') ∧ c ≤ M := by
  unfold scanTail at h
  unfold decodeTail
  by_cases he : esc = true ∧ code = 92
  · rw [if_pos he] at h ⊢
    obtain ⟨r, s1, e, _⟩ := parseEsc_spec s
    rw [e] at h ⊢
    cases r with
    | invalidEsc => cases h
    | notEsc =>
      simp only [Out.ok.injEq, Prod.mk.injEq] at h
      exact ⟨code, by rw [h.2], hc⟩
    | code x =>
      simp only [Out.ok.injEq, Prod.mk.injEq] at h
      have hx : x ≤ M := by
        obtain ⟨h1, _⟩ := h
        split at h1 <;> omega
      exact ⟨x, by simp only; rw [if_pos (by omega), h.2], hx⟩
  · rw [if_neg he] at h ⊢
    simp only [Out.ok.injEq, Prod.mk.injEq] at h
    exact ⟨code, by rw [h.2], hc⟩

theorem codeLen_ge2 (c : Nat) (h : 0x80 ≤ c) (h0 : codeLen c ≠ 0) : 2 ≤ codeLen c ∧ codeLen c ≤ 4 ∧ c < 0xF8 := by
  by_cases hc : c < 256
  · have : ∀ c : Fin 256, 0x80 ≤ c.val → codeLen c.val ≠ 0 → 2 ≤ codeLen c.val ∧ codeLen c.val ≤ 4 ∧ c.val < 0xF8 := by
      decide +kernel
    exact this ⟨c, hc⟩ h h0
  · exfalso; apply h0
    unfold codeLen
    rw [List.getElem?_eq_none, Option.getD_none]
    rw [Nat.shiftRight_eq_div_pow]; show 32 ≤ _; omega

theorem first_small (c : Nat) (h : 0x80 ≤ c) (h0 : codeLen c ≠ 0) : (c &&& ((0x80 >>> codeLen c) - 1)) < 32 := by
  have h1 := codeLen_ge2 c h h0
  have : ∀ c : Fin 256, 0x80 ≤ c.val → codeLen c.val ≠ 0 → (c.val &&& ((0x80 >>> codeLen c.val) - 1)) < 32 := by
    decide +kernel
  exact this ⟨c, by omega⟩ h h0

theorem char_agree (esc : Bool) (width m : Nat) (str : List Nat) (m' : Nat) (s' : List Nat) (M : Nat)
    (h : scanChar esc m str = .ok (m', s')) (hm : m' ≤ M) (h7 : 0x7F ≤ M) (hM : M < 2 ^ width) (hw : 6 ≤ width) :
    ∃ c, decodeChar esc width str = .ok (c, s') ∧ c ≤ M := by
  cases str with
  | nil => simp [scanChar] at h
  | cons c s =>
    rw [scanChar_cons] at h
    rw [decodeChar_cons]
    by_cases h1 : c < 0x80
    · rw [if_pos h1] at h
      rw [if_neg (by omega)]
      exact tail_agree esc width c m s m' s' M h hm (by omega) hM
    · rw [if_neg h1] at h
      rw [if_pos (by omega)]
      by_cases h2 : codeLen c = 0 ∨ codeLen c - 1 > s.length ∨ c < 0xC2
      · rw [if_pos h2] at h; cases h
      · rw [if_neg h2] at h
        have h3 := codeLen_ge2 c (by omega) (by omega)
        rw [if_neg (by omega)]
        have h5 := first_small c (by omega) (by omega)
        have hp : (2:Nat) ^ 6 ≤ 2 ^ width := Nat.pow_le_pow_right (by decide) hw
        cases e : contScan (codeLen c - 1) (c &&& ((0x80 >>> codeLen c) - 1)) s with
        | err => rw [e] at h; cases h
        | ub => rw [e] at h; cases h
        | ok p =>
          obtain ⟨code, s1⟩ := p
          rw [e] at h
          simp only at h
          have h4 := contDec_eq width _ _ _ _ _ e
          rw [Nat.mod_eq_of_lt (a := c &&& _) (by omega)] at h4
          have hcode : code ≤ M := by
            rcases scanTail_spec esc code (if code > m then code else m) s1 with e' | ⟨a, b, e', _, h6⟩
            · rw [e'] at h; cases h
            · rw [e'] at h
              simp only [Out.ok.injEq, Prod.mk.injEq] at h
              split at h6 <;> omega
          rw [Nat.mod_eq_of_lt (a := code) (by omega)] at h4
          rw [h4]
          exact tail_agree esc width code _ s1 m' s' M h hm hcode hM

theorem slowLoop_mono (esc : Bool) : ∀ fuel c0 m0 str n m, slowLoop esc fuel c0 m0 str = .ok (n, m) → m0 ≤ m := by
  intro fuel
  induction fuel with
  | zero => intro c0 m0 str n m h; simp [slowLoop] at h
  | succ fuel ih =>
    intro c0 m0 str n m h
    unfold slowLoop at h
    by_cases he : str = []
    · rw [if_pos he] at h
      simp only [Out.ok.injEq, Prod.mk.injEq] at h; omega
    · rw [if_neg he] at h
      rcases scanChar_spec esc m0 str he with e | ⟨m', s', e, _, _, hm⟩
      · rw [e] at h; cases h
      · rw [e] at h
        have := ih _ _ _ _ _ h
        omega

theorem slow_decode (esc : Bool) (width : Nat) (hw : 6 ≤ width) : ∀ fuel c0 m0 str n m M,
    slowLoop esc fuel c0 m0 str = .ok (n, m) → m ≤ M → 0x7F ≤ M → M < 2 ^ width →
    ∃ out, decodeLoop esc width fuel str = .ok out ∧ c0 + out.length = n ∧ ∀ x ∈ out, x ≤ M := by
  intro fuel
  induction fuel with
  | zero => intro c0 m0 str n m M h; simp [slowLoop] at h
  | succ fuel ih =>
    intro c0 m0 str n m M h hm h7 hM
    unfold slowLoop at h
    unfold decodeLoop
    by_cases he : str = []
    · rw [if_pos he] at h ⊢
      simp only [Out.ok.injEq, Prod.mk.injEq] at h
      exact ⟨[], rfl, by simp; omega, by simp⟩
    · rw [if_neg he] at h ⊢
      rcases scanChar_spec esc m0 str he with e | ⟨m', s', e, _, _, _⟩
      · rw [e] at h; cases h
      · rw [e] at h
        simp only at h
        have hm' := slowLoop_mono esc _ _ _ _ _ _ h
        obtain ⟨c, ec, hc⟩ := char_agree esc width m0 str m' s' M e (by omega) h7 hM hw
        obtain ⟨out, eo, hl, hall⟩ := ih _ _ _ _ _ M h hm h7 hM
        refine ⟨c :: out, ?_, by simp; omega, ?_⟩
        · rw [ec]; simp only; rw [eo]
        · intro x hx
          rcases List.mem_cons.mp hx with rfl | hx
          · exact hc
          · exact hall x hx

/-- The scanner stays within its input. -/
theorem slowLoop_safe (esc : Bool) : ∀ fuel c0 m0 str, str.length < fuel → slowLoop esc fuel c0 m0 str ≠ .ub := by
  intro fuel
  induction fuel with
  | zero => intro c0 m0 str h; omega
  | succ fuel ih =>
    intro c0 m0 str h
    unfold slowLoop
    by_cases he : str = []
    · rw [if_pos he]; simp
    · rw [if_neg he]
      rcases scanChar_spec esc m0 str he with e | ⟨m', s', e, _, hl, _⟩
      · rw [e]; simp
      · rw [e]
        exact ih _ _ _ (by omega)

/-- Without escapes every character takes at most four bytes. -/
theorem scanChar_four (m : Nat) (str : List Nat) (m' : Nat) (s' : List Nat) (h : scanChar false m str = .ok (m', s')) :
    str.length ≤ s'.length + 4 := by
  cases str with
  | nil => simp
  | cons c s =>
    rw [scanChar_cons] at h
    simp only [scanTail, Bool.false_eq_true, false_and, if_false] at h
    split at h
    · simp only [Out.ok.injEq, Prod.mk.injEq] at h
      rw [← h.2]; simp
    · split at h
      · cases h
      · rename_i h1 h2
        have h3 := codeLen_ge2 c (by omega) (by omega)
        rcases contScan_spec (codeLen c - 1) (c &&& ((0x80 >>> codeLen c) - 1)) s (by omega) with e | ⟨code, s1, e, hl, _⟩
        · rw [e] at h; cases h
        · rw [e] at h
          simp only [Out.ok.injEq, Prod.mk.injEq] at h
          rw [← h.2]; simp; omega

theorem slowLoop_four : ∀ fuel c0 m0 str n m, slowLoop false fuel c0 m0 str = .ok (n, m) →
    str.length + 4 * c0 ≤ 4 * n ∧ c0 ≤ n ∧ (str ≠ [] → c0 < n) := by
  intro fuel
  induction fuel with
  | zero => intro c0 m0 str n m h; simp [slowLoop] at h
  | succ fuel ih =>
    intro c0 m0 str n m h
    unfold slowLoop at h
    by_cases he : str = []
    · rw [if_pos he] at h
      simp only [Out.ok.injEq, Prod.mk.injEq] at h; subst he; simp; omega
    · rw [if_neg he] at h
      rcases scanChar_spec false m0 str he with e | ⟨m', s', e, _, _, _⟩
      · rw [e] at h; cases h
      · have h4 := scanChar_four _ _ _ _ e
        rw [e] at h
        have := ih _ _ _ _ _ h
        omega

end Verif.Utf8
