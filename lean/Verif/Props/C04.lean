import Verif.Compiler.Imm
/-! C04: immediates are read back as written. -/
namespace Verif.Compiler

theorem or80 (b : Nat) (h : b < 256) : (b ||| 0x80) &&& 0x7F = b % 128 ∧ (b ||| 0x80) > 0x7F ∧ b ||| 0x80 < 256 := by
  have : ∀ b : Fin 256, (b.val ||| 0x80) &&& 0x7F = b.val % 128 ∧ (b.val ||| 0x80) > 0x7F ∧ b.val ||| 0x80 < 256 := by
    decide +kernel
  exact this ⟨b, h⟩

theorem and7f (b : Nat) (h : b < 128) : b &&& 0x7F = b := by
  have := Nat.and_two_pow_sub_one_eq_mod b 7
  simp at this; rw [this]; omega

theorem writeUimm_small (v : Nat) (h : v < 128) : writeUimm v = [v] := by
  rw [writeUimm]
  rw [if_pos (by omega)]; simp; omega

theorem writeUimm_big (v : Nat) (h : ¬ v < 128) :
    writeUimm v = ((v % 256) ||| 0x80) :: writeUimm (v / 128) := by
  rw [writeUimm]
  rw [if_neg (by omega)]

theorem loadLoop_spec (dbg : Bool) (rest : List Nat) : ∀ (k v uv bits size : Nat),
    v < 2 ^ (7 * (k + 1)) → bits + 7 * k < 32 → uv + v * 2 ^ bits < 2 ^ 32 →
    (dbg = true → size + k + 1 < 5) →
    loadUimmLoop dbg uv bits size (writeUimm v ++ rest) =
      .ok (uv + v * 2 ^ bits) (size + (writeUimm v).length) := by
  intro k
  induction k with
  | zero =>
    intro v uv bits size hv hb hs hd
    rw [writeUimm_small v (by simpa using hv)]
    have hv : v < 128 := by simpa using hv
    simp only [List.cons_append, List.nil_append, loadUimmLoop, and7f v hv]
    rw [if_neg (c := bits ≥ 32) (by omega), if_neg (by rintro ⟨_, h⟩; omega), if_neg (by omega),
      if_neg (by rintro ⟨h1, h⟩; have := hd h1; omega), Nat.mod_eq_of_lt hs]
    simp
  | succ k ih =>
    intro v uv bits size hv hb hs hd
    by_cases h : v < 128
    · rw [writeUimm_small v h]
      simp only [List.cons_append, List.nil_append, loadUimmLoop, and7f v h]
      rw [if_neg (c := bits ≥ 32) (by omega), if_neg (by rintro ⟨_, h⟩; omega), if_neg (by omega),
        if_neg (by rintro ⟨h1, h⟩; have := hd h1; omega), Nat.mod_eq_of_lt hs]
      simp
    · rw [writeUimm_big v h]
      obtain ⟨h1, h2, h3⟩ := or80 (v % 256) (by omega)
      simp only [List.cons_append, loadUimmLoop, h1]
      have hm : v % 256 % 128 = v % 128 := by omega
      rw [hm]
      have hdec : v * 2 ^ bits = v / 128 * 2 ^ (bits + 7) + v % 128 * 2 ^ bits := by
        rw [Nat.pow_add, show (2:Nat)^7 = 128 from rfl]
        conv => lhs; rw [← Nat.div_add_mod v 128, Nat.add_mul]
        rw [Nat.mul_comm 128, Nat.mul_assoc, Nat.mul_comm 128]
      have hlt : uv + v % 128 * 2 ^ bits < 2 ^ 32 := by omega
      rw [if_neg (c := bits ≥ 32) (by omega), if_neg (by rintro ⟨_, h⟩; omega), if_pos h2,
        Nat.mod_eq_of_lt hlt]
      rw [ih (v / 128) _ (bits + 7) (size + 1) ?_ (by omega) (by omega) (by intro h; have := hd h; omega)]
      · rw [hdec]
        simp only [List.length_cons]
        congr 1 <;> omega
      · rw [show 7 * (k + 1 + 1) = 7 * (k + 1) + 7 by omega, Nat.pow_add] at hv
        exact Nat.div_lt_of_lt_mul (by omega)

/-- **C04 (unsigned).** An immediate of at most 28 bits is read back exactly, for any following
bytes, with all asserts holding; without asserts this extends to every `uint32_t`. -/
theorem C04_uimm_roundtrip (v : Nat) (rest : List Nat) :
    (v < 2 ^ 28 → loadUimm true (writeUimm v ++ rest) = .ok v (writeUimm v).length) ∧
    (v < 2 ^ 32 → loadUimm false (writeUimm v ++ rest) = .ok v (writeUimm v).length) := by
  constructor
  · intro h
    have := loadLoop_spec true rest 3 v 0 0 0 (by simpa using h) (by omega) (by omega) (by omega)
    simpa [loadUimm] using this
  · intro h
    have := loadLoop_spec false rest 4 v 0 0 0 (by omega) (by omega) (by omega) (by simp)
    simpa [loadUimm] using this

theorem encodeSigned_toNat (v : BitVec 32) : (encodeSigned v).toNat =
    if v.toNat < 2 ^ 31 then 2 * v.toNat else 2 ^ 33 - 1 - 2 * v.toNat := by
  unfold encodeSigned
  have hlt := v.isLt
  by_cases h : v.toNat < 2 ^ 31
  · rw [if_pos h]
    have hm : v.msb = false := by rw [BitVec.msb_eq_decide]; simp; omega
    have hz : v.sshiftRight 31 = 0#32 := by
      apply BitVec.eq_of_toNat_eq
      rw [BitVec.toNat_sshiftRight, hm]
      simp [Nat.shiftRight_eq_div_pow]; omega
    rw [hz]; simp [Nat.shiftLeft_eq]; omega
  · rw [if_neg h]
    have hm : v.msb = true := by rw [BitVec.msb_eq_decide]; simp; omega
    have hz : v.sshiftRight 31 = BitVec.allOnes 32 := by
      apply BitVec.eq_of_toNat_eq
      rw [BitVec.toNat_sshiftRight, hm]
      simp [Nat.shiftRight_eq_div_pow]; omega
    rw [hz, BitVec.xor_allOnes]
    simp [Nat.shiftLeft_eq]; omega

theorem writeUimm_length (v : Nat) (h : v < 2 ^ 32) : (writeUimm v).length =
    if v ≤ 0x7F then 1 else if v ≤ 0x3FFF then 2 else if v ≤ 0x1FFFFF then 3 else if v ≤ 0x0FFFFFFF then 4 else 5 := by
  by_cases h1 : v < 128
  · rw [writeUimm_small v h1, if_pos (by omega)]; rfl
  rw [writeUimm_big v h1, if_neg (by omega)]
  by_cases h2 : v / 128 < 128
  · rw [writeUimm_small _ h2, if_pos (by omega)]; rfl
  rw [writeUimm_big _ h2, if_neg (by omega)]
  by_cases h3 : v / 128 / 128 < 128
  · rw [writeUimm_small _ h3, if_pos (by omega)]; rfl
  rw [writeUimm_big _ h3, if_neg (by omega)]
  by_cases h4 : v / 128 / 128 / 128 < 128
  · rw [writeUimm_small _ h4, if_pos (by omega)]; rfl
  rw [writeUimm_big _ h4, if_neg (by omega)]
  rw [writeUimm_small _ (by omega)]; rfl

theorem decode_encode (v : BitVec 32) (h : -2 ^ 30 ≤ v.toInt ∧ v.toInt < 2 ^ 30) :
    (let u := (encodeSigned v).toNat
     let s := (BitVec.ofNat 32 u).sshiftRight 1
     if u &&& 1 = 1 then ~~~ s else s) = v := by
  simp only
  have hu := encodeSigned_toNat v
  have hlt := v.isLt
  rw [BitVec.toInt_eq_toNat_cond] at h
  rw [Nat.and_one_is_mod]
  have hshift : ∀ u : Nat, u < 2 ^ 31 → ((BitVec.ofNat 32 u).sshiftRight 1).toNat = u / 2 := by
    intro u hu
    have hm : (BitVec.ofNat 32 u).msb = false := by rw [BitVec.msb_eq_decide]; simp; omega
    rw [BitVec.toNat_sshiftRight, hm]
    simp [Nat.shiftRight_eq_div_pow]; omega
  split at hu
  · rw [if_neg (by omega)]
    apply BitVec.eq_of_toNat_eq
    rw [hshift _ (by omega)]; omega
  · rw [if_pos (by omega)]
    apply BitVec.eq_of_toNat_eq
    rw [BitVec.toNat_not, hshift _ (by omega)]; omega

/-- **C04 (signed).** Every signed immediate of at most 28 bits is read back exactly with all asserts
holding; without asserts this extends to 31 bits. -/
theorem C04_simm_roundtrip (v : BitVec 32) (rest : List Nat) :
    (-2 ^ 27 ≤ v.toInt ∧ v.toInt < 2 ^ 27 →
      loadSimm true (writeSimm v ++ rest) = .ok v (writeSimm v).length) ∧
    (-2 ^ 30 ≤ v.toInt ∧ v.toInt < 2 ^ 30 →
      loadSimm false (writeSimm v ++ rest) = .ok v (writeSimm v).length) := by
  have hu := encodeSigned_toNat v
  have hlt := v.isLt
  constructor
  · intro h
    have hd := decode_encode v ⟨by omega, by omega⟩
    rw [BitVec.toInt_eq_toNat_cond] at h
    have hs : (encodeSigned v).toNat < 2 ^ 28 := by split at hu <;> omega
    unfold loadSimm writeSimm
    rw [(C04_uimm_roundtrip _ rest).1 hs]
    simp only at hd ⊢
    rw [hd]
  · intro h
    have hd := decode_encode v h
    unfold loadSimm writeSimm
    rw [(C04_uimm_roundtrip _ rest).2 (encodeSigned v).isLt]
    simp only at hd ⊢
    rw [hd]

/-- **C04 (size).** The predicted size of a signed immediate is the number of bytes written. -/
theorem C04_simm_size (v : BitVec 32) : simmSize v = (writeSimm v).length := by
  unfold simmSize writeSimm
  rw [writeUimm_length _ (encodeSigned v).isLt]

/-- The range in `C04_simm_roundtrip` is sharp: outside it the reader's arithmetic shift gives another
number. Such immediates are not emitted: code is limited to 2^21 bytes (core/kos_compiler.c, KOS_MAX_CODE_SIZE). -/
theorem C04_simm_limit : loadSimm false (writeSimm (BitVec.ofInt 32 (2 ^ 30))) ≠
    .ok (BitVec.ofInt 32 (2 ^ 30)) 5 := by decide +kernel

example : loadSimm true (writeSimm (BitVec.ofInt 32 (-1000)) ++ [0xFF, 0xFF]) = .ok (BitVec.ofInt 32 (-1000)) 2 := by
  decide +kernel

end Verif.Compiler
