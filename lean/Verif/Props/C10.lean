import Verif.Vm.IntOps
/-! C10: integer division and modulo. -/
namespace Verif.Vm

/-- Non-vacuity: a quotient of mixed sign. -/
example : vmDiv (-7) 2 = .val (-3) ∧ vmMod (-7) 2 = .val (-1) := by decide

theorem toInt_sdiv_ok (a b : I64) (h : ¬ (a = intMin ∧ b = -1)) :
    (a.sdiv b).toInt = Int.tdiv a.toInt b.toInt := by
  apply BitVec.toInt_sdiv_of_ne_or_ne
  by_cases h1 : a = intMin
  · right; intro hb; exact h ⟨h1, by simpa using hb⟩
  · left; intro ha; apply h1; rw [ha]; decide

/-- **C10.** Division: zero divisors and the single overflowing pair raise; every other pair gives
integers `q`, `r` with `a = q*b + r`, `|r| < |b|`, and `r` zero or of the sign of `a`
(so `q` is the rational quotient truncated toward zero), and `q` fits in 64 bits. -/
theorem C10_div_mod_law (a b : I64) :
    (b = 0 → vmDiv a b = .raise .divByZero ∧ vmMod a b = .raise .divByZero) ∧
    (a.toInt = -2^63 ∧ b.toInt = -1 →
      vmDiv a b = .raise .divOverflow ∧ vmMod a b = .raise .divOverflow) ∧
    (b ≠ 0 → ¬ (a.toInt = -2^63 ∧ b.toInt = -1) →
      ∃ q r : I64, vmDiv a b = .val q ∧ vmMod a b = .val r ∧
        a.toInt = q.toInt * b.toInt + r.toInt ∧
        r.toInt.natAbs < b.toInt.natAbs ∧
        (r.toInt = 0 ∨ (0 < r.toInt ↔ 0 < a.toInt))) := by
  have hmin : ∀ x : I64, x.toInt = -2^63 ↔ x = intMin := by
    intro x
    constructor
    · intro h; apply BitVec.eq_of_toInt_eq; rw [h]; decide
    · intro h; rw [h]; decide
  have hm1 : ∀ x : I64, x.toInt = -1 ↔ x = -1 := by
    intro x
    constructor
    · intro h; apply BitVec.eq_of_toInt_eq; rw [h]; decide
    · intro h; rw [h]; decide
  refine ⟨?_, ?_, ?_⟩
  · intro h
    subst h
    have h0 : ¬ ((0 : I64) = -1) := by decide
    simp only [vmDiv, vmMod, h0]
    simp
  · rintro ⟨h1, h2⟩
    rw [hmin] at h1; rw [hm1] at h2
    simp [vmDiv, vmMod, h1, h2]
  · intro hb hov
    rw [hmin, hm1] at hov
    have hov' : ¬ (b = -1 ∧ a = intMin) := fun h => hov ⟨h.2, h.1⟩
    refine ⟨a.sdiv b, a.srem b, ?_, ?_, ?_, ?_, ?_⟩
    · rw [vmDiv, if_neg hov', if_pos hb, cDiv, if_neg hb, if_neg hov]
    · rw [vmMod, if_neg hov', if_pos hb, cMod, if_neg hb, if_neg hov]
    · rw [toInt_sdiv_ok a b hov, BitVec.toInt_srem]
      have := Int.mul_tdiv_add_tmod a.toInt b.toInt
      rw [Int.mul_comm]; omega
    · rw [BitVec.toInt_srem]
      have hb' : b.toInt ≠ 0 := by
        intro h; apply hb; apply BitVec.eq_of_toInt_eq; rw [h]; decide
      rw [Int.natAbs_tmod]
      exact Nat.mod_lt _ (by omega)
    · rw [BitVec.toInt_srem]
      by_cases h0 : 0 ≤ a.toInt
      · have := Int.tmod_nonneg b.toInt h0
        by_cases h2 : 0 < a.toInt
        · omega
        · have h3 : a.toInt = 0 := by omega
          left; rw [h3]; simp
      · have := Int.tmod_nonneg b.toInt (a := -a.toInt) (by omega)
        rw [Int.neg_tmod] at this
        omega

end Verif.Vm
