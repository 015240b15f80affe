import Verif.Rb.DeleteLoop

/-!
A deleted node with two children changes places with its successor: the writes, for the three ways in which the nodes can be
adjacent.
-/
namespace Verif.Rb

set_option linter.unusedSimpArgs false
set_option maxHeartbeats 1000000

theorem swap1 {h : Heap} {root zp x : Ptr} {z s la cz cs fuel : Nat} {nl : Node}
    (hz : h z = some ⟨zp, some la, some s, cz⟩) (hs : h s = some ⟨some z, none, x, cs⟩) (hla : h la = some nl) (hlm : leftmost h fuel (some s) = some (some s))
    (nzs : z ≠ s) (nzla : z ≠ la) (nsla : s ≠ la)
    (hx : ∀ b, x = some b → (∃ n, h b = some n) ∧ b ≠ z ∧ b ≠ s ∧ b ≠ la)
    (hp : ∀ p, zp = some p → (∃ n, h p = some n) ∧ x ≠ some p ∧ p ≠ z ∧ p ≠ s ∧ p ≠ la) :
    ∃ h' root', swapSucc fuel h root (some z) = some (h', root') ∧
      h' s = some ⟨zp, some la, some z, cz⟩ ∧
      h' z = some ⟨some s, none, x, cs⟩ ∧
      h' la = some { nl with parent := some s } ∧
      (∀ b n, x = some b → h b = some n → h' b = some { n with parent := some z }) ∧
      (∀ p n, zp = some p → h p = some n → n.left = some z → h' p = some { n with left := some s }) ∧
      (∀ p n, zp = some p → h p = some n → n.left ≠ some z → h' p = some { n with right := some s }) ∧
      root' = (if zp = none then some s else root) ∧
      (∀ a, a ≠ z → a ≠ s → a ≠ la → some a ≠ x → some a ≠ zp → h' a = h a) := by
  cases x with
  | none =>
    cases zp with
    | none =>
      refine ⟨_, _, by simp [swapSucc, deref, setRight, setLeft, setParent, setRed, modify, hz, hs, hla, hlm, nzs, nzs.symm, nzla, nzla.symm, nsla, nsla.symm]; exact ⟨rfl, rfl⟩, ?_⟩
      simp [hz, hs, hla, nzs, nzs.symm, nzla, nzla.symm, nsla, nsla.symm]
      try grind
    | some p =>
      obtain ⟨⟨np, hpp⟩, hxp, epz, eps, epla⟩ := hp p rfl
      by_cases hl : np.left = some z
      · refine ⟨_, _, by simp [swapSucc, deref, setRight, setLeft, setParent, setRed, modify, hz, hs, hla, hlm, nzs, nzs.symm, nzla, nzla.symm, nsla, nsla.symm, hpp, epz, eps, epla, epz.symm, eps.symm, epla.symm, hl]; exact ⟨rfl, rfl⟩, ?_⟩
        simp [hz, hs, hla, nzs, nzs.symm, nzla, nzla.symm, nsla, nsla.symm, hpp, epz, eps, epla, epz.symm, eps.symm, epla.symm, hl]
        try grind
      · refine ⟨_, _, by simp [swapSucc, deref, setRight, setLeft, setParent, setRed, modify, hz, hs, hla, hlm, nzs, nzs.symm, nzla, nzla.symm, nsla, nsla.symm, hpp, epz, eps, epla, epz.symm, eps.symm, epla.symm, hl]; exact ⟨rfl, rfl⟩, ?_⟩
        simp [hz, hs, hla, nzs, nzs.symm, nzla, nzla.symm, nsla, nsla.symm, hpp, epz, eps, epla, epz.symm, eps.symm, epla.symm, hl]
        try grind
  | some b =>
    obtain ⟨⟨nb, hb⟩, ebz, ebs, ebla⟩ := hx b rfl
    cases zp with
    | none =>
      refine ⟨_, _, by simp [swapSucc, deref, setRight, setLeft, setParent, setRed, modify, hz, hs, hla, hlm, nzs, nzs.symm, nzla, nzla.symm, nsla, nsla.symm, hb, ebz, ebs, ebla, ebz.symm, ebs.symm, ebla.symm]; exact ⟨rfl, rfl⟩, ?_⟩
      simp [hz, hs, hla, nzs, nzs.symm, nzla, nzla.symm, nsla, nsla.symm, hb, ebz, ebs, ebla, ebz.symm, ebs.symm, ebla.symm]
      try grind
    | some p =>
      obtain ⟨⟨np, hpp⟩, hxp, epz, eps, epla⟩ := hp p rfl
      have hbp : b ≠ p := fun e => hxp (e ▸ rfl)
      by_cases hl : np.left = some z
      · refine ⟨_, _, by simp [swapSucc, deref, setRight, setLeft, setParent, setRed, modify, hz, hs, hla, hlm, nzs, nzs.symm, nzla, nzla.symm, nsla, nsla.symm, hb, ebz, ebs, ebla, ebz.symm, ebs.symm, ebla.symm, hpp, epz, eps, epla, epz.symm, eps.symm, epla.symm, hbp, hbp.symm, hl]; exact ⟨rfl, rfl⟩, ?_⟩
        simp [hz, hs, hla, nzs, nzs.symm, nzla, nzla.symm, nsla, nsla.symm, hb, ebz, ebs, ebla, ebz.symm, ebs.symm, ebla.symm, hpp, epz, eps, epla, epz.symm, eps.symm, epla.symm, hbp, hbp.symm, hl]
        try grind
      · refine ⟨_, _, by simp [swapSucc, deref, setRight, setLeft, setParent, setRed, modify, hz, hs, hla, hlm, nzs, nzs.symm, nzla, nzla.symm, nsla, nsla.symm, hb, ebz, ebs, ebla, ebz.symm, ebs.symm, ebla.symm, hpp, epz, eps, epla, epz.symm, eps.symm, epla.symm, hbp, hbp.symm, hl]; exact ⟨rfl, rfl⟩, ?_⟩
        simp [hz, hs, hla, nzs, nzs.symm, nzla, nzla.symm, nsla, nsla.symm, hb, ebz, ebs, ebla, ebz.symm, ebs.symm, ebla.symm, hpp, epz, eps, epla, epz.symm, eps.symm, epla.symm, hbp, hbp.symm, hl]
        try grind

theorem swap2 {h : Heap} {root zp x : Ptr} {z s la cz cs fuel : Nat} {nl : Node} {ra rc : Nat} {rr : Ptr}
    (hz : h z = some ⟨zp, some la, some ra, cz⟩) (hs : h s = some ⟨some ra, none, x, cs⟩) (hla : h la = some nl) (hlm : leftmost h fuel (some ra) = some (some s)) (hra : h ra = some ⟨some z, some s, rr, rc⟩)
    (nzs : z ≠ s) (nzla : z ≠ la) (nzra : z ≠ ra) (nsla : s ≠ la) (nsra : s ≠ ra) (nlara : la ≠ ra)
    (hx : ∀ b, x = some b → (∃ n, h b = some n) ∧ b ≠ z ∧ b ≠ s ∧ b ≠ la ∧ b ≠ ra)
    (hp : ∀ p, zp = some p → (∃ n, h p = some n) ∧ x ≠ some p ∧ p ≠ z ∧ p ≠ s ∧ p ≠ la ∧ p ≠ ra) :
    ∃ h' root', swapSucc fuel h root (some z) = some (h', root') ∧
      h' s = some ⟨zp, some la, some ra, cz⟩ ∧
      h' z = some ⟨some ra, none, x, cs⟩ ∧
      h' la = some { nl with parent := some s } ∧
      (∀ b n, x = some b → h b = some n → h' b = some { n with parent := some z }) ∧
      (∀ p n, zp = some p → h p = some n → n.left = some z → h' p = some { n with left := some s }) ∧
      (∀ p n, zp = some p → h p = some n → n.left ≠ some z → h' p = some { n with right := some s }) ∧
      root' = (if zp = none then some s else root) ∧
      h' ra = some ⟨some s, some z, rr, rc⟩ ∧
      (∀ a, a ≠ z → a ≠ s → a ≠ la → a ≠ ra → some a ≠ x → some a ≠ zp → h' a = h a) := by
  cases x with
  | none =>
    cases zp with
    | none =>
      refine ⟨_, _, by simp [swapSucc, deref, setRight, setLeft, setParent, setRed, modify, hz, hs, hla, hlm, nzs, nzs.symm, nzla, nzla.symm, nzra, nzra.symm, nsla, nsla.symm, nsra, nsra.symm, nlara, nlara.symm, hra]; exact ⟨rfl, rfl⟩, ?_⟩
      simp [hz, hs, hla, nzs, nzs.symm, nzla, nzla.symm, nzra, nzra.symm, nsla, nsla.symm, nsra, nsra.symm, nlara, nlara.symm, hra]
      try grind
    | some p =>
      obtain ⟨⟨np, hpp⟩, hxp, epz, eps, epla, epra⟩ := hp p rfl
      by_cases hl : np.left = some z
      · refine ⟨_, _, by simp [swapSucc, deref, setRight, setLeft, setParent, setRed, modify, hz, hs, hla, hlm, nzs, nzs.symm, nzla, nzla.symm, nzra, nzra.symm, nsla, nsla.symm, nsra, nsra.symm, nlara, nlara.symm, hra, hpp, epz, eps, epla, epra, epz.symm, eps.symm, epla.symm, epra.symm, hl]; exact ⟨rfl, rfl⟩, ?_⟩
        simp [hz, hs, hla, nzs, nzs.symm, nzla, nzla.symm, nzra, nzra.symm, nsla, nsla.symm, nsra, nsra.symm, nlara, nlara.symm, hra, hpp, epz, eps, epla, epra, epz.symm, eps.symm, epla.symm, epra.symm, hl]
        try grind
      · refine ⟨_, _, by simp [swapSucc, deref, setRight, setLeft, setParent, setRed, modify, hz, hs, hla, hlm, nzs, nzs.symm, nzla, nzla.symm, nzra, nzra.symm, nsla, nsla.symm, nsra, nsra.symm, nlara, nlara.symm, hra, hpp, epz, eps, epla, epra, epz.symm, eps.symm, epla.symm, epra.symm, hl]; exact ⟨rfl, rfl⟩, ?_⟩
        simp [hz, hs, hla, nzs, nzs.symm, nzla, nzla.symm, nzra, nzra.symm, nsla, nsla.symm, nsra, nsra.symm, nlara, nlara.symm, hra, hpp, epz, eps, epla, epra, epz.symm, eps.symm, epla.symm, epra.symm, hl]
        try grind
  | some b =>
    obtain ⟨⟨nb, hb⟩, ebz, ebs, ebla, ebra⟩ := hx b rfl
    cases zp with
    | none =>
      refine ⟨_, _, by simp [swapSucc, deref, setRight, setLeft, setParent, setRed, modify, hz, hs, hla, hlm, nzs, nzs.symm, nzla, nzla.symm, nzra, nzra.symm, nsla, nsla.symm, nsra, nsra.symm, nlara, nlara.symm, hra, hb, ebz, ebs, ebla, ebra, ebz.symm, ebs.symm, ebla.symm, ebra.symm]; exact ⟨rfl, rfl⟩, ?_⟩
      simp [hz, hs, hla, nzs, nzs.symm, nzla, nzla.symm, nzra, nzra.symm, nsla, nsla.symm, nsra, nsra.symm, nlara, nlara.symm, hra, hb, ebz, ebs, ebla, ebra, ebz.symm, ebs.symm, ebla.symm, ebra.symm]
      try grind
    | some p =>
      obtain ⟨⟨np, hpp⟩, hxp, epz, eps, epla, epra⟩ := hp p rfl
      have hbp : b ≠ p := fun e => hxp (e ▸ rfl)
      by_cases hl : np.left = some z
      · refine ⟨_, _, by simp [swapSucc, deref, setRight, setLeft, setParent, setRed, modify, hz, hs, hla, hlm, nzs, nzs.symm, nzla, nzla.symm, nzra, nzra.symm, nsla, nsla.symm, nsra, nsra.symm, nlara, nlara.symm, hra, hb, ebz, ebs, ebla, ebra, ebz.symm, ebs.symm, ebla.symm, ebra.symm, hpp, epz, eps, epla, epra, epz.symm, eps.symm, epla.symm, epra.symm, hbp, hbp.symm, hl]; exact ⟨rfl, rfl⟩, ?_⟩
        simp [hz, hs, hla, nzs, nzs.symm, nzla, nzla.symm, nzra, nzra.symm, nsla, nsla.symm, nsra, nsra.symm, nlara, nlara.symm, hra, hb, ebz, ebs, ebla, ebra, ebz.symm, ebs.symm, ebla.symm, ebra.symm, hpp, epz, eps, epla, epra, epz.symm, eps.symm, epla.symm, epra.symm, hbp, hbp.symm, hl]
        try grind
      · refine ⟨_, _, by simp [swapSucc, deref, setRight, setLeft, setParent, setRed, modify, hz, hs, hla, hlm, nzs, nzs.symm, nzla, nzla.symm, nzra, nzra.symm, nsla, nsla.symm, nsra, nsra.symm, nlara, nlara.symm, hra, hb, ebz, ebs, ebla, ebra, ebz.symm, ebs.symm, ebla.symm, ebra.symm, hpp, epz, eps, epla, epra, epz.symm, eps.symm, epla.symm, epra.symm, hbp, hbp.symm, hl]; exact ⟨rfl, rfl⟩, ?_⟩
        simp [hz, hs, hla, nzs, nzs.symm, nzla, nzla.symm, nzra, nzra.symm, nsla, nsla.symm, nsra, nsra.symm, nlara, nlara.symm, hra, hb, ebz, ebs, ebla, ebra, ebz.symm, ebs.symm, ebla.symm, ebra.symm, hpp, epz, eps, epla, epra, epz.symm, eps.symm, epla.symm, epra.symm, hbp, hbp.symm, hl]
        try grind

theorem swap3 {h : Heap} {root zp x : Ptr} {z s la cz cs fuel : Nat} {nl : Node} {ra q qc rc : Nat} {rl rr qp qr : Ptr}
    (hz : h z = some ⟨zp, some la, some ra, cz⟩) (hs : h s = some ⟨some q, none, x, cs⟩) (hla : h la = some nl) (hlm : leftmost h fuel (some ra) = some (some s)) (hra : h ra = some ⟨some z, rl, rr, rc⟩) (hq : h q = some ⟨qp, some s, qr, qc⟩)
    (nzs : z ≠ s) (nzla : z ≠ la) (nzra : z ≠ ra) (nzq : z ≠ q) (nsla : s ≠ la) (nsra : s ≠ ra) (nsq : s ≠ q) (nlara : la ≠ ra) (nlaq : la ≠ q) (nraq : ra ≠ q)
    (hx : ∀ b, x = some b → (∃ n, h b = some n) ∧ b ≠ z ∧ b ≠ s ∧ b ≠ la ∧ b ≠ ra ∧ b ≠ q)
    (hp : ∀ p, zp = some p → (∃ n, h p = some n) ∧ x ≠ some p ∧ p ≠ z ∧ p ≠ s ∧ p ≠ la ∧ p ≠ ra ∧ p ≠ q) :
    ∃ h' root', swapSucc fuel h root (some z) = some (h', root') ∧
      h' s = some ⟨zp, some la, some ra, cz⟩ ∧
      h' z = some ⟨some q, none, x, cs⟩ ∧
      h' la = some { nl with parent := some s } ∧
      (∀ b n, x = some b → h b = some n → h' b = some { n with parent := some z }) ∧
      (∀ p n, zp = some p → h p = some n → n.left = some z → h' p = some { n with left := some s }) ∧
      (∀ p n, zp = some p → h p = some n → n.left ≠ some z → h' p = some { n with right := some s }) ∧
      root' = (if zp = none then some s else root) ∧
      h' ra = some ⟨some s, rl, rr, rc⟩ ∧
      h' q = some ⟨qp, some z, qr, qc⟩ ∧
      (∀ a, a ≠ z → a ≠ s → a ≠ la → a ≠ ra → a ≠ q → some a ≠ x → some a ≠ zp → h' a = h a) := by
  cases x with
  | none =>
    cases zp with
    | none =>
      refine ⟨_, _, by simp [swapSucc, deref, setRight, setLeft, setParent, setRed, modify, hz, hs, hla, hlm, nzs, nzs.symm, nzla, nzla.symm, nzra, nzra.symm, nzq, nzq.symm, nsla, nsla.symm, nsra, nsra.symm, nsq, nsq.symm, nlara, nlara.symm, nlaq, nlaq.symm, nraq, nraq.symm, hra, hq]; exact ⟨rfl, rfl⟩, ?_⟩
      simp [hz, hs, hla, nzs, nzs.symm, nzla, nzla.symm, nzra, nzra.symm, nzq, nzq.symm, nsla, nsla.symm, nsra, nsra.symm, nsq, nsq.symm, nlara, nlara.symm, nlaq, nlaq.symm, nraq, nraq.symm, hra, hq]
      try grind
    | some p =>
      obtain ⟨⟨np, hpp⟩, hxp, epz, eps, epla, epra, epq⟩ := hp p rfl
      by_cases hl : np.left = some z
      · refine ⟨_, _, by simp [swapSucc, deref, setRight, setLeft, setParent, setRed, modify, hz, hs, hla, hlm, nzs, nzs.symm, nzla, nzla.symm, nzra, nzra.symm, nzq, nzq.symm, nsla, nsla.symm, nsra, nsra.symm, nsq, nsq.symm, nlara, nlara.symm, nlaq, nlaq.symm, nraq, nraq.symm, hra, hq, hpp, epz, eps, epla, epra, epq, epz.symm, eps.symm, epla.symm, epra.symm, epq.symm, hl]; exact ⟨rfl, rfl⟩, ?_⟩
        simp [hz, hs, hla, nzs, nzs.symm, nzla, nzla.symm, nzra, nzra.symm, nzq, nzq.symm, nsla, nsla.symm, nsra, nsra.symm, nsq, nsq.symm, nlara, nlara.symm, nlaq, nlaq.symm, nraq, nraq.symm, hra, hq, hpp, epz, eps, epla, epra, epq, epz.symm, eps.symm, epla.symm, epra.symm, epq.symm, hl]
        try grind
      · refine ⟨_, _, by simp [swapSucc, deref, setRight, setLeft, setParent, setRed, modify, hz, hs, hla, hlm, nzs, nzs.symm, nzla, nzla.symm, nzra, nzra.symm, nzq, nzq.symm, nsla, nsla.symm, nsra, nsra.symm, nsq, nsq.symm, nlara, nlara.symm, nlaq, nlaq.symm, nraq, nraq.symm, hra, hq, hpp, epz, eps, epla, epra, epq, epz.symm, eps.symm, epla.symm, epra.symm, epq.symm, hl]; exact ⟨rfl, rfl⟩, ?_⟩
        simp [hz, hs, hla, nzs, nzs.symm, nzla, nzla.symm, nzra, nzra.symm, nzq, nzq.symm, nsla, nsla.symm, nsra, nsra.symm, nsq, nsq.symm, nlara, nlara.symm, nlaq, nlaq.symm, nraq, nraq.symm, hra, hq, hpp, epz, eps, epla, epra, epq, epz.symm, eps.symm, epla.symm, epra.symm, epq.symm, hl]
        try grind
  | some b =>
    obtain ⟨⟨nb, hb⟩, ebz, ebs, ebla, ebra, ebq⟩ := hx b rfl
    cases zp with
    | none =>
      refine ⟨_, _, by simp [swapSucc, deref, setRight, setLeft, setParent, setRed, modify, hz, hs, hla, hlm, nzs, nzs.symm, nzla, nzla.symm, nzra, nzra.symm, nzq, nzq.symm, nsla, nsla.symm, nsra, nsra.symm, nsq, nsq.symm, nlara, nlara.symm, nlaq, nlaq.symm, nraq, nraq.symm, hra, hq, hb, ebz, ebs, ebla, ebra, ebq, ebz.symm, ebs.symm, ebla.symm, ebra.symm, ebq.symm]; exact ⟨rfl, rfl⟩, ?_⟩
      simp [hz, hs, hla, nzs, nzs.symm, nzla, nzla.symm, nzra, nzra.symm, nzq, nzq.symm, nsla, nsla.symm, nsra, nsra.symm, nsq, nsq.symm, nlara, nlara.symm, nlaq, nlaq.symm, nraq, nraq.symm, hra, hq, hb, ebz, ebs, ebla, ebra, ebq, ebz.symm, ebs.symm, ebla.symm, ebra.symm, ebq.symm]
      try grind
    | some p =>
      obtain ⟨⟨np, hpp⟩, hxp, epz, eps, epla, epra, epq⟩ := hp p rfl
      have hbp : b ≠ p := fun e => hxp (e ▸ rfl)
      by_cases hl : np.left = some z
      · refine ⟨_, _, by simp [swapSucc, deref, setRight, setLeft, setParent, setRed, modify, hz, hs, hla, hlm, nzs, nzs.symm, nzla, nzla.symm, nzra, nzra.symm, nzq, nzq.symm, nsla, nsla.symm, nsra, nsra.symm, nsq, nsq.symm, nlara, nlara.symm, nlaq, nlaq.symm, nraq, nraq.symm, hra, hq, hb, ebz, ebs, ebla, ebra, ebq, ebz.symm, ebs.symm, ebla.symm, ebra.symm, ebq.symm, hpp, epz, eps, epla, epra, epq, epz.symm, eps.symm, epla.symm, epra.symm, epq.symm, hbp, hbp.symm, hl]; exact ⟨rfl, rfl⟩, ?_⟩
        simp [hz, hs, hla, nzs, nzs.symm, nzla, nzla.symm, nzra, nzra.symm, nzq, nzq.symm, nsla, nsla.symm, nsra, nsra.symm, nsq, nsq.symm, nlara, nlara.symm, nlaq, nlaq.symm, nraq, nraq.symm, hra, hq, hb, ebz, ebs, ebla, ebra, ebq, ebz.symm, ebs.symm, ebla.symm, ebra.symm, ebq.symm, hpp, epz, eps, epla, epra, epq, epz.symm, eps.symm, epla.symm, epra.symm, epq.symm, hbp, hbp.symm, hl]
        try grind
      · refine ⟨_, _, by simp [swapSucc, deref, setRight, setLeft, setParent, setRed, modify, hz, hs, hla, hlm, nzs, nzs.symm, nzla, nzla.symm, nzra, nzra.symm, nzq, nzq.symm, nsla, nsla.symm, nsra, nsra.symm, nsq, nsq.symm, nlara, nlara.symm, nlaq, nlaq.symm, nraq, nraq.symm, hra, hq, hb, ebz, ebs, ebla, ebra, ebq, ebz.symm, ebs.symm, ebla.symm, ebra.symm, ebq.symm, hpp, epz, eps, epla, epra, epq, epz.symm, eps.symm, epla.symm, epra.symm, epq.symm, hbp, hbp.symm, hl]; exact ⟨rfl, rfl⟩, ?_⟩
        simp [hz, hs, hla, nzs, nzs.symm, nzla, nzla.symm, nzra, nzra.symm, nzq, nzq.symm, nsla, nsla.symm, nsra, nsra.symm, nsq, nsq.symm, nlara, nlara.symm, nlaq, nlaq.symm, nraq, nraq.symm, hra, hq, hb, ebz, ebs, ebla, ebra, ebq, ebz.symm, ebs.symm, ebla.symm, ebra.symm, ebq.symm, hpp, epz, eps, epla, epra, epq, epz.symm, eps.symm, epla.symm, epra.symm, epq.symm, hbp, hbp.symm, hl]
        try grind

end Verif.Rb
