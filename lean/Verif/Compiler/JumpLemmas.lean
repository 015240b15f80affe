import Verif.Compiler.Jump
import Verif.Props.C04

/-! Relaxation of jumps: every pass keeps the offsets right, and passes end. -/
namespace Verif.Compiler

/-- Where offset `x` of the code ends up if the jumps at the given offsets have the given sizes of operands, instead of one byte. -/
def sh : List (Nat × Nat) → Nat → Nat
  | [], x => x
  | (o, s) :: l, x => sh l x + if o < x then s - 1 else 0

theorem sh_le (l : List (Nat × Nat)) (x : Nat) : x ≤ sh l x := by
  induction l with
  | nil => exact Nat.le_refl _
  | cons a l ih => obtain ⟨o, s⟩ := a; simp only [sh]; omega

theorem sh_mono (l : List (Nat × Nat)) {x y : Nat} (h : x ≤ y) : sh l x + (y - x) ≤ sh l y := by
  induction l with
  | nil => simp only [sh]; omega
  | cons a l ih => obtain ⟨o, s⟩ := a; simp only [sh]; split <;> split <;> omega

theorem sh_lt_iff (l : List (Nat × Nat)) (x y : Nat) : sh l x < sh l y ↔ x < y := by
  constructor
  · intro h
    apply Decidable.byContradiction
    intro hn
    have := sh_mono l (show y ≤ x by omega)
    omega
  · intro h
    have := sh_mono l (show x ≤ y by omega)
    omega

theorem sh_bound (l : List (Nat × Nat)) (x : Nat) (h : ∀ a ∈ l, a.2 ≤ 5) : sh l x ≤ x + 4 * l.length := by
  induction l with
  | nil => simp [sh]
  | cons a l ih =>
    obtain ⟨o, s⟩ := a
    have h1 := ih (fun a ha => h a (List.mem_cons_of_mem _ ha))
    have h2 : s ≤ 5 := h (o, s) List.mem_cons_self
    simp only [sh, List.length_cons]; split <;> omega

theorem sh_set (l : List (Nat × Nat)) (c o s d : Nat) (h : l[c]? = some (o, s)) (hs : 1 ≤ s) (x : Nat) :
    sh (l.set c (o, s + d)) x = sh l x + if o < x then d else 0 := by
  induction l generalizing c with
  | nil => simp at h
  | cons a l ih =>
    cases c with
    | zero =>
      simp only [List.getElem?_cons_zero, Option.some.injEq] at h
      subst h
      simp only [List.set_cons_zero, sh]; split <;> omega
    | succ c =>
      obtain ⟨o', s'⟩ := a
      simp only [List.getElem?_cons_succ] at h
      simp only [List.set_cons_succ, sh, ih c h]; omega

/-- A jump over its own operand. -/
theorem sh_jump (l : List (Nat × Nat)) (c o s : Nat) (h : l[c]? = some (o, s)) {y : Nat} (hy : o < y) :
    sh l o + (y - o) + (s - 1) ≤ sh l y := by
  induction l generalizing c with
  | nil => simp at h
  | cons a l ih =>
    cases c with
    | zero =>
      simp only [List.getElem?_cons_zero, Option.some.injEq] at h
      subst h
      have := sh_mono l (show o ≤ y by omega)
      simp only [sh]; rw [if_neg (by omega), if_pos hy]; omega
    | succ c =>
      obtain ⟨o', s'⟩ := a
      simp only [List.getElem?_cons_succ] at h
      have := ih c h
      simp only [sh]; split <;> split <;> omega

/-- Encoded offset, and its number of bytes. -/
def zig (v : Int) : Nat := if 0 ≤ v then 2 * v.toNat else 2 * (-v).toNat - 1

def cls (u : Nat) : Nat := if u ≤ 0x7F then 1 else if u ≤ 0x3FFF then 2 else if u ≤ 0x1FFFFF then 3 else if u ≤ 0x0FFFFFFF then 4 else 5

theorem simmSize_eq (v : Int) (h : -134217728 ≤ v ∧ v < 134217728) : simmSize (BitVec.ofInt 32 v) = cls (zig v) := by
  unfold simmSize cls
  simp only
  have e : (encodeSigned (BitVec.ofInt 32 v)).toNat = zig v := by
    rw [encodeSigned_toNat]
    have ht : ((BitVec.ofInt 32 v).toNat : Int) = v % 4294967296 := by
      simp [BitVec.toNat_ofInt]
      omega
    unfold zig
    by_cases hv : 0 ≤ v
    · have : (BitVec.ofInt 32 v).toNat = v.toNat := by omega
      rw [if_pos (by omega), if_pos hv, this]
    · have : (BitVec.ofInt 32 v).toNat = 4294967296 - (-v).toNat := by omega
      rw [if_neg (by omega), if_neg hv, this]; omega
  rw [e]

theorem cls_mono {a b : Nat} (h : a ≤ b) : cls a ≤ cls b := by
  unfold cls; repeat' split
  all_goals omega

theorem cls_pos (a : Nat) : 1 ≤ cls a := by unfold cls; repeat' split
                                            all_goals omega
theorem cls_le (a : Nat) : cls a ≤ 5 := by unfold cls; repeat' split
                                           all_goals omega

theorem zig_neg {a b : Int} (h : b ≤ a) (ha : a ≤ 0) : zig a ≤ zig b := by unfold zig; split <;> split <;> omega

theorem zig_pos {a b : Int} (h : a ≤ b) (ha : 0 ≤ a) : zig a ≤ zig b := by unfold zig; split <;> split <;> omega

theorem toInt_ofInt32 (v : Int) (h : -134217728 ≤ v ∧ v < 134217728) : (BitVec.ofInt 32 v).toInt = v := by
  rw [BitVec.toInt_ofInt]
  simp [Int.bmod]; omega

theorem updateImmSize_fwd (e : Entry) (hi : e.imm ≤ 5) (hf : e.instr + e.base + e.imm ≤ e.target) (hb : e.target < 33554432)
    (hc : e.imm ≤ cls (zig ((e.target : Int) - (e.instr + e.base + e.imm : Nat)))) (h1 : 1 ≤ e.imm) :
    updateImmSize e = some (cls (zig ((e.target : Int) - (e.instr + e.base + e.imm : Nat)))) := by
  have hstep : ∀ fuel prev, e.imm ≤ prev → prev ≤ 5 → prev ≤ cls (zig ((e.target : Int) - (e.instr + e.base + e.imm : Nat))) →
      immSizeLoop e (fuel + 1) prev = if cls (zig ((e.target : Int) - (e.instr + e.base + e.imm : Nat))) > prev then
        immSizeLoop e fuel (cls (zig ((e.target : Int) - (e.instr + e.base + e.imm : Nat)))) else
        some (cls (zig ((e.target : Int) - (e.instr + e.base + e.imm : Nat)))) := by
    intro fuel prev hp hp5 hle
    simp only [immSizeLoop]
    rw [if_pos (show e.target > e.instr by omega)]
    have : ((e.target + (prev - e.imm) : Nat) : Int) - (e.instr + e.base + prev : Nat) = (e.target : Int) - (e.instr + e.base + e.imm : Nat) := by
      omega
    rw [this, simmSize_eq _ (by omega), if_neg (by omega)]
  unfold updateImmSize
  have h5 := cls_le (zig ((e.target : Int) - (e.instr + e.base + e.imm : Nat)))
  rw [hstep 5 e.imm (Nat.le_refl _) hi hc]
  split
  · rw [hstep 4 _ (by omega) h5 (Nat.le_refl _), if_neg (by omega)]
  · rfl

theorem updateImmSize_bwd (e : Entry) (hi : e.imm ≤ 5) (hf : e.target ≤ e.instr) (hb : e.instr + e.base < 33554432)
    (hc : e.imm ≤ cls (zig ((e.target : Int) - (e.instr + e.base + e.imm : Nat)))) :
    ∃ s, updateImmSize e = some s ∧ e.imm ≤ s ∧ s ≤ 5 ∧ cls (zig ((e.target : Int) - (e.instr + e.base + s : Nat))) = s := by
  have key : ∀ fuel prev, e.imm ≤ prev → 6 ≤ fuel + prev → prev ≤ 5 → 1 ≤ fuel →
      prev ≤ cls (zig ((e.target : Int) - (e.instr + e.base + prev : Nat))) →
      ∃ s, immSizeLoop e fuel prev = some s ∧ prev ≤ s ∧ s ≤ 5 ∧ cls (zig ((e.target : Int) - (e.instr + e.base + s : Nat))) = s := by
    intro fuel
    induction fuel with
    | zero => omega
    | succ fuel ih =>
      intro prev hp hfu hp5 h1 hle
      simp only [immSizeLoop]
      rw [if_neg (show ¬ e.target > e.instr by omega), simmSize_eq _ (by omega), if_neg (by omega)]
      split
      · rename_i hgt
        have h5 := cls_le (zig ((e.target : Int) - (e.instr + e.base + prev : Nat)))
        obtain ⟨s, h2, h3, h4⟩ := ih (cls (zig ((e.target : Int) - (e.instr + e.base + prev : Nat)))) (by omega) (by omega) h5 (by omega)
          (cls_mono (zig_neg (by omega) (by omega)))
        exact ⟨s, h2, by omega, h4⟩
      · exact ⟨_, rfl, hle, cls_le _, by
          have : cls (zig ((e.target : Int) - (e.instr + e.base + prev : Nat))) = prev := by omega
          rw [this, this]⟩
  exact key 6 e.imm (Nat.le_refl _) (by omega) hi (by omega) hc

/-- The jumps of a function: offsets of the instructions and of their targets, in the code with one byte per operand. -/
structure Layout (code : List Nat) (J : List (Nat × Nat)) : Prop where
  size : code.length ≤ 2097152
  op : ∀ a ∈ J, ∃ op, code[a.1]? = some op ∧ isJump op = true ∧ a.1 + baseSize op + 1 ≤ code.length
  order : J.Pairwise fun a b => ∀ op, code[a.1]? = some op → a.1 + baseSize op + 1 ≤ b.1
  target : ∀ a ∈ J, a.2 ≤ code.length ∧ ∀ b ∈ J, ∀ op, code[b.1]? = some op → a.2 ≤ b.1 ∨ b.1 + baseSize op + 1 ≤ a.2

def sizes (es : List Entry) : List (Nat × Nat) := es.map fun e => (e.orig, e.imm)

/-- The offset to be written for a jump from `o` to `t`. -/
def joff (es : List Entry) (o t base imm : Nat) : Int := (sh (sizes es) t : Int) - (sh (sizes es) o + base + imm : Nat)

/-- What holds between any two steps of the relaxation; the first `b` entries know the sizes of their instructions. -/
structure Inv (code : List Nat) (J : List (Nat × Nat)) (b : Nat) (es : List Entry) : Prop where
  len : es.length = J.length
  ent : ∀ j e o t, es[j]? = some e → J[j]? = some (o, t) → e.orig = o ∧ e.instr = sh (sizes es) o ∧ e.target = sh (sizes es) t ∧
    1 ≤ e.imm ∧ e.imm ≤ 5 ∧ (∀ op, code[o]? = some op → (j < b → e.base = baseSize op) ∧ e.imm ≤ cls (zig (joff es o t (baseSize op) e.imm)))

theorem Layout.lt {code : List Nat} {J : List (Nat × Nat)} (L : Layout code J) {i j : Nat} {a b : Nat × Nat} (hi : J[i]? = some a)
    (hj : J[j]? = some b) (h : i < j) : a.1 < b.1 := by
  obtain ⟨h1, h2⟩ := List.getElem?_eq_some_iff.mp hi
  obtain ⟨h3, h4⟩ := List.getElem?_eq_some_iff.mp hj
  have := List.pairwise_iff_getElem.mp L.order i j h1 h3 h
  rw [h2, h4] at this
  obtain ⟨op, ho, _⟩ := L.op a (List.mem_of_getElem? hi)
  have := this op ho
  omega

theorem Layout.lt_iff {code : List Nat} {J : List (Nat × Nat)} (L : Layout code J) {i j : Nat} {a b : Nat × Nat} (hi : J[i]? = some a)
    (hj : J[j]? = some b) : a.1 < b.1 ↔ i < j := by
  constructor
  · intro h
    rcases Nat.lt_trichotomy i j with h1 | h1 | h1
    · exact h1
    · subst h1; rw [hi] at hj; cases hj; omega
    · have := L.lt hj hi h1; omega
  · exact L.lt hi hj

theorem sizes_getElem {es : List Entry} {c : Nat} {e : Entry} (h : es[c]? = some e) : (sizes es)[c]? = some (e.orig, e.imm) := by
  simp [sizes, h]

def total (es : List Entry) : Nat := (es.map (·.imm)).sum

theorem total_set (es : List Entry) (c : Nat) (e : Entry) (h : es[c]? = some e) (s : Nat) (hs : e.imm ≤ s) :
    total (es.set c { e with imm := s }) = total es + (s - e.imm) := by
  induction es generalizing c with
  | nil => simp at h
  | cons a l ih =>
    cases c with
    | zero =>
      simp only [List.getElem?_cons_zero, Option.some.injEq] at h
      subst h
      simp only [List.set_cons_zero, total, List.map_cons, List.sum_cons]; omega
    | succ c =>
      simp only [List.getElem?_cons_succ] at h
      have := ih c h
      simp only [total, List.set_cons_succ, List.map_cons, List.sum_cons] at this ⊢; omega

theorem total_mapIdx (c o d : Nat) (es : List Entry) : total (es.mapIdx (moveEntry c o d)) = total es := by
  unfold total
  congr 1
  apply List.ext_getElem?
  intro i
  simp only [List.getElem?_map, List.getElem?_mapIdx]
  cases es[i]? <;> simp [moveEntry]

theorem sizes_mapIdx (c o d : Nat) (es : List Entry) : sizes (es.mapIdx (moveEntry c o d)) = sizes es := by
  unfold sizes
  apply List.ext_getElem?
  intro i
  simp only [List.getElem?_map, List.getElem?_mapIdx]
  cases es[i]? <;> simp [moveEntry]

theorem sizes_set (es : List Entry) (c s : Nat) (e : Entry) : sizes (es.set c { e with imm := s }) = (sizes es).set c (e.orig, s) := by
  simp [sizes, List.map_set]

theorem Inv.bound {code : List Nat} {J : List (Nat × Nat)} {b : Nat} {es : List Entry} (L : Layout code J) (I : Inv code J b es) {x : Nat}
    (hx : x ≤ code.length) : sh (sizes es) x ≤ 16777216 := by
  have h1 : ∀ a ∈ sizes es, a.2 ≤ 5 := by
    intro a ha
    simp only [sizes, List.mem_map] at ha
    obtain ⟨e, he, rfl⟩ := ha
    obtain ⟨j, hj⟩ := List.mem_iff_getElem?.mp he
    have hlt : j < J.length := by rw [← I.len]; exact (List.getElem?_eq_some_iff.mp hj).1
    exact (I.ent j e J[j].1 J[j].2 hj (List.getElem?_eq_getElem hlt)).2.2.2.2.1
  have h2 := sh_bound (sizes es) x h1
  have h3 : (sizes es).length = J.length := by simp [sizes, I.len]
  have h4 : J.length ≤ code.length := by
    have : ∀ (l : List (Nat × Nat)) (n : Nat), l.Pairwise (fun a b => a.1 < b.1) → (∀ a ∈ l, n ≤ a.1 ∧ a.1 < code.length) → n ≤ code.length →
        l.length + n ≤ code.length := by
      intro l
      induction l with
      | nil => intro n _ _ h; simpa using h
      | cons a l ih =>
        intro n hp hb hn
        have h0 := hb a List.mem_cons_self
        have := ih (a.1 + 1) (List.pairwise_cons.mp hp).2
          (fun b hb' => ⟨(List.pairwise_cons.mp hp).1 b hb', (hb b (List.mem_cons_of_mem _ hb')).2⟩) (by omega)
        simp only [List.length_cons]; omega
    have hp : J.Pairwise (fun a b => a.1 < b.1) := by
      rw [List.pairwise_iff_getElem]
      intro i j hi hj hij
      exact L.lt (List.getElem?_eq_getElem hi) (List.getElem?_eq_getElem hj) hij
    have := this J 0 hp (fun a ha => by
      obtain ⟨op, ho, _, hl⟩ := L.op a ha
      omega) (Nat.zero_le _)
    omega
  have := L.size
  omega

/-- One step of a pass. -/
theorem step_inv {code : List Nat} {J : List (Nat × Nat)} {b : Nat} {es : List Entry} (L : Layout code J) (I : Inv code J b es) {c : Nat}
    {e : Entry} {o t op : Nat} (he : es[c]? = some e) (hj : J[c]? = some (o, t)) (ho : code[o]? = some op) (hb : c < b) :
    ∃ es' d, updateJumpOffsets es c = some (es', d) ∧ Inv code J b es' ∧ total es' = total es + d ∧
      (d = 0 → es' = es ∧ cls (zig (joff es o t (baseSize op) e.imm)) = e.imm) := by
  obtain ⟨horig, hinstr, htarget, h1, h5, hops⟩ := I.ent c e o t he hj
  obtain ⟨hbase, hcls⟩ := hops op ho
  replace hbase := hbase hb
  obtain ⟨htl, htb⟩ := L.target (o, t) (List.mem_of_getElem? hj)
  have htb := htb (o, t) (List.mem_of_getElem? hj) op ho
  simp only at htl htb
  have hol : o ≤ code.length := by have := (List.getElem?_eq_some_iff.mp ho).1; omega
  have hbt := I.bound L htl
  have hbo := I.bound L hol
  have hbs : baseSize op ≤ 3 := by unfold baseSize; repeat' split
                                   all_goals omega
  have hjo : (e.target : Int) - (e.instr + e.base + e.imm : Nat) = joff es o t (baseSize op) e.imm := by
    unfold joff; rw [htarget, hinstr, hbase]
  have hsz := sizes_getElem he
  rw [horig] at hsz
  -- the new size
  obtain ⟨s, hs, hs1, hs5, hfix⟩ : ∃ s, updateImmSize e = some s ∧ e.imm ≤ s ∧ s ≤ 5 ∧
      cls (zig ((sh (sizes es) t + (if o < t then s - e.imm else 0) : Nat) - (sh (sizes es) o + baseSize op + s : Nat))) = s := by
    by_cases hot : o < t
    · have hj2 := sh_jump (sizes es) c o e.imm hsz hot
      refine ⟨_, updateImmSize_fwd e h5 (by omega) (by omega) (by rw [hjo]; exact hcls) h1, by rw [hjo]; exact hcls, cls_le _, ?_⟩
      rw [if_pos hot]
      have := cls_le (zig ((e.target : Int) - (e.instr + e.base + e.imm : Nat)))
      have hge : e.imm ≤ cls (zig ((e.target : Int) - (e.instr + e.base + e.imm : Nat))) := by rw [hjo]; exact hcls
      generalize hS : cls (zig ((e.target : Int) - (e.instr + e.base + e.imm : Nat))) = S at *
      rw [← hS]
      congr 2
      omega
    · have hm := sh_mono (sizes es) (show t ≤ o by omega)
      obtain ⟨s, a1, a2, a3, a4⟩ := updateImmSize_bwd e h5 (by omega) (by omega) (by rw [hjo]; exact hcls)
      refine ⟨s, a1, a2, a3, ?_⟩
      rw [if_neg hot, ← hinstr, ← htarget, ← hbase]
      exact a4
  have hsz2 : sizes (es.set c { e with imm := s }) = (sizes es).set c (o, e.imm + (s - e.imm)) := by
    rw [sizes_set, horig]; congr 2; omega
  have hshift : ∀ x, sh (sizes (es.set c { e with imm := s })) x = sh (sizes es) x + if o < x then s - e.imm else 0 := by
    intro x; rw [hsz2]; exact sh_set (sizes es) c o e.imm (s - e.imm) hsz h1 x
  unfold updateJumpOffsets
  rw [he]
  simp only [hs]
  by_cases hd : s - e.imm = 0
  · have hse : s = e.imm := by omega
    subst hse
    have hset : es.set c { e with imm := e.imm } = es := by
      obtain ⟨k1, k2⟩ := List.getElem?_eq_some_iff.mp he
      subst k2
      exact List.set_getElem_self k1
    rw [if_pos hd, hset]
    refine ⟨es, e.imm - e.imm, rfl, I, by omega, fun _ => ⟨rfl, ?_⟩⟩
    rw [hd] at hfix
    simp only [ite_self, Nat.add_zero] at hfix
    exact hfix
  · rw [if_neg hd]
    refine ⟨_, _, rfl, ?_, by rw [total_mapIdx, total_set es c e he s hs1], by omega⟩
    refine ⟨by simp [I.len], ?_⟩
    intro j e' o' t' hj' hJ'
    have hszs : ∀ x, sh (sizes ((es.set c { e with imm := s }).mapIdx (moveEntry c e.instr (s - e.imm)))) x =
        sh (sizes es) x + if o < x then s - e.imm else 0 := by
      intro x; rw [sizes_mapIdx]; exact hshift x
    simp only [List.getElem?_mapIdx, Option.map_eq_some_iff] at hj'
    obtain ⟨f, hf, rfl⟩ := hj'
    have hlt := L.lt_iff hj hJ'
    simp only at hlt
    -- the entry before the step
    obtain ⟨f0, hf0, hf1, hf2, hf3, hf4⟩ : ∃ f0, es[j]? = some f0 ∧ f.orig = f0.orig ∧ f.instr = f0.instr ∧ f.target = f0.target ∧ f.base = f0.base := by
      by_cases hcj : c = j
      · subst hcj
        have hcl := (List.getElem?_eq_some_iff.mp he).1
        rw [List.getElem?_set_self hcl] at hf
        cases hf
        exact ⟨e, he, rfl, rfl, rfl, rfl⟩
      · rw [List.getElem?_set_ne hcj] at hf
        exact ⟨f, hf, rfl, rfl, rfl, rfl⟩
    obtain ⟨g1, g2, g3, g4, g5, g6⟩ := I.ent j f0 o' t' hf0 hJ'
    have hcmp := sh_lt_iff (sizes es) o t'
    refine ⟨by simp only [moveEntry]; omega, ?_, ?_, ?_⟩
    · rw [hszs]; simp only [moveEntry]
      by_cases hjc : j ≤ c
      · rw [if_pos hjc, if_neg (by omega)]; omega
      · rw [if_neg hjc, if_pos (by omega)]; omega
    · rw [hszs]; simp only [moveEntry]
      by_cases h : o < t'
      · rw [if_pos (by omega), if_pos h]; omega
      · rw [if_neg (by omega), if_neg h]; omega
    · by_cases hcj : c = j
      · subst hcj
        rw [hj] at hJ'; cases hJ'
        rw [he] at hf0; cases hf0
        have hcl := (List.getElem?_eq_some_iff.mp he).1
        rw [List.getElem?_set_self hcl] at hf
        cases hf
        refine ⟨by simp only [moveEntry]; omega, by simp only [moveEntry]; omega, ?_⟩
        intro op' ho'
        rw [ho] at ho'; cases ho'
        refine ⟨fun _ => hbase, ?_⟩
        simp only [moveEntry, joff, hszs]
        rw [if_neg (Nat.lt_irrefl o), Nat.add_zero, hfix]
        exact Nat.le_refl _
      · rw [List.getElem?_set_ne hcj] at hf
        rw [hf0] at hf; cases hf
        refine ⟨g4, g5, ?_⟩
        intro op' ho'
        obtain ⟨k1, k2⟩ := g6 op' ho'
        refine ⟨k1, Nat.le_trans k2 (cls_mono ?_)⟩
        simp only [moveEntry, joff, hszs]
        obtain ⟨_, ktb⟩ := L.target (o', t') (List.mem_of_getElem? hJ')
        have ktb := ktb (o', t') (List.mem_of_getElem? hJ') op' ho'
        simp only at ktb
        have hsz' := sizes_getElem hf0
        rw [g1] at hsz'
        by_cases hot : o' < t'
        · have hj2 := sh_jump (sizes es) j o' _ hsz' hot
          apply zig_pos
          · by_cases x1 : o < o'
            · rw [if_pos x1, if_pos (show o < t' by omega)]; omega
            · rw [if_neg x1]; omega
          · omega
        · have hm := sh_mono (sizes es) (show t' ≤ o' by omega)
          apply zig_neg
          · by_cases x1 : o < t'
            · rw [if_pos x1, if_pos (show o < o' by omega)]; omega
            · rw [if_neg x1]; omega
          · omega

/-- The size of the operand of jump `j` is the size of its offset. -/
def ExactAt (code : List Nat) (J : List (Nat × Nat)) (S : List (Nat × Nat)) (j : Nat) : Prop :=
  ∀ o t op s, J[j]? = some (o, t) → code[o]? = some op → S[j]? = some (o, s) →
    cls (zig ((sh S t : Int) - (sh S o + baseSize op + s : Nat))) = s

theorem setBase {code : List Nat} {J : List (Nat × Nat)} {c : Nat} {es : List Entry} (I : Inv code J c es) {e : Entry} {o t op : Nat}
    (he : es[c]? = some e) (hj : J[c]? = some (o, t)) (ho : code[o]? = some op) :
    Inv code J (c + 1) (es.set c { e with base := baseSize op }) ∧ sizes (es.set c { e with base := baseSize op }) = sizes es ∧
      total (es.set c { e with base := baseSize op }) = total es := by
  have hcl := (List.getElem?_eq_some_iff.mp he).1
  have hs : sizes (es.set c { e with base := baseSize op }) = sizes es := by
    unfold sizes
    apply List.ext_getElem?
    intro i
    simp only [List.getElem?_map]
    by_cases h : c = i
    · subst h; rw [List.getElem?_set_self hcl, he]; rfl
    · rw [List.getElem?_set_ne h]
  refine ⟨⟨by simp [I.len], ?_⟩, hs, ?_⟩
  · intro j e' o' t' he' hj'
    simp only [joff, hs]
    by_cases h : c = j
    · subst h
      rw [List.getElem?_set_self hcl] at he'
      cases he'
      obtain ⟨h1, h2, h3, h4, h5, h6⟩ := I.ent c e o' t' he hj'
      refine ⟨h1, h2, h3, h4, h5, ?_⟩
      intro op' ho'
      rw [hj] at hj'; cases hj'
      rw [ho] at ho'; cases ho'
      exact ⟨fun _ => rfl, (h6 op ho).2⟩
    · rw [List.getElem?_set_ne h] at he'
      obtain ⟨h1, h2, h3, h4, h5, h6⟩ := I.ent j e' o' t' he' hj'
      refine ⟨h1, h2, h3, h4, h5, ?_⟩
      intro op' ho'
      exact ⟨fun hlt => (h6 op' ho').1 (by omega), (h6 op' ho').2⟩
  · have : ∀ l : List Entry, total l = ((sizes l).map (·.2)).sum := by
      intro l; simp [total, sizes, Function.comp_def]
    rw [this, this, hs]

theorem pass_inv {code : List Nat} {J : List (Nat × Nat)} (L : Layout code J) (first : Bool) :
    ∀ (n c : Nat) (es : List Entry) (tot : Nat), c + n = J.length → Inv code J (if first then c else J.length) es →
    ∃ es' d, pass code first n c es tot = some (es', tot + d) ∧ Inv code J J.length es' ∧ total es' = total es + d ∧
      (d = 0 → sizes es' = sizes es ∧ ∀ j, c ≤ j → ExactAt code J (sizes es') j) := by
  intro n
  induction n with
  | zero =>
    intro c es tot hn I
    refine ⟨es, 0, rfl, ?_, rfl, fun _ => ⟨rfl, ?_⟩⟩
    · have : c = J.length := by omega
      subst this
      simpa using I
    · intro j hj o t op s h
      have := (List.getElem?_eq_some_iff.mp h).1
      omega
  | succ n ih =>
    intro c es tot hn I
    have hc : c < J.length := by omega
    have hce : c < es.length := by rw [I.len]; exact hc
    obtain ⟨e, he⟩ : ∃ e, es[c]? = some e := ⟨_, List.getElem?_eq_getElem hce⟩
    obtain ⟨⟨o, t⟩, hj⟩ : ∃ a, J[c]? = some a := ⟨_, List.getElem?_eq_getElem hc⟩
    obtain ⟨op, ho, hij, hop⟩ := L.op (o, t) (List.mem_of_getElem? hj)
    simp only at ho
    -- the base size
    obtain ⟨hI, hS, hT, hB⟩ : Inv code J (if first then c + 1 else J.length) (es.set c { e with base := baseSize op }) ∧
        sizes (es.set c { e with base := baseSize op }) = sizes es ∧ total (es.set c { e with base := baseSize op }) = total es ∧
        (if first then (code[e.orig]?).map baseSize else some e.base) = some (baseSize op) := by
      obtain ⟨h1, _, _, _, _, h6⟩ := I.ent c e o t he hj
      cases first
      · simp only [Bool.false_eq_true, if_false] at I ⊢
        have hb := (h6 op ho).1 hc
        have hset : es.set c { e with base := baseSize op } = es := by
          rw [← hb]
          obtain ⟨k1, k2⟩ := List.getElem?_eq_some_iff.mp he
          subst k2
          exact List.set_getElem_self k1
        rw [hset, hb]
        exact ⟨I, rfl, rfl, rfl⟩
      · simp only [if_true] at I ⊢
        obtain ⟨a1, a2, a3⟩ := setBase I he hj ho
        refine ⟨a1, a2, a3, ?_⟩
        rw [h1, ho]; rfl
    unfold pass
    rw [he]
    simp only []
    rw [hB]
    simp only []
    have he2 : (es.set c { e with base := baseSize op })[c]? = some { e with base := baseSize op } := List.getElem?_set_self hce
    have hcb : c < (if first then c + 1 else J.length) := by cases first <;> simp <;> omega
    obtain ⟨es1, d, hu, hI1, ht1, hd1⟩ := step_inv L hI he2 hj ho hcb
    rw [hu]
    simp only []
    obtain ⟨es2, d2, hp, hI2, ht2, hd2⟩ := ih (c + 1) es1 (tot + d) (by omega) hI1
    refine ⟨es2, d + d2, by rw [hp, Nat.add_assoc], hI2, by omega, ?_⟩
    intro h0
    obtain ⟨k1, k2⟩ := hd2 (by omega)
    obtain ⟨k3, k4⟩ := hd1 (by omega)
    refine ⟨by rw [k1, k3, hS], ?_⟩
    intro j hj'
    by_cases hcj : j = c
    · subst hcj
      intro o' t' op' s h1' h2' h3'
      rw [hj] at h1'; cases h1'
      rw [ho] at h2'; cases h2'
      have hss := sizes_getElem he2
      rw [k1, k3] at h3' ⊢
      rw [hss] at h3'
      simp only [Option.some.injEq, Prod.mk.injEq] at h3'
      rw [← h3'.2]
      exact k4
    · exact k2 j (by omega)

theorem total_le {code : List Nat} {J : List (Nat × Nat)} {b : Nat} {es : List Entry} (I : Inv code J b es) : J.length ≤ total es ∧ total es ≤ 5 * J.length := by
  have h : ∀ e ∈ es, 1 ≤ e.imm ∧ e.imm ≤ 5 := by
    intro e he
    obtain ⟨j, hj⟩ := List.mem_iff_getElem?.mp he
    have hlt : j < J.length := by rw [← I.len]; exact (List.getElem?_eq_some_iff.mp hj).1
    have := I.ent j e J[j].1 J[j].2 hj (List.getElem?_eq_getElem hlt)
    exact ⟨this.2.2.2.1, this.2.2.2.2.1⟩
  rw [← I.len]
  clear I
  induction es with
  | nil => simp [total]
  | cons a l ih =>
    have h1 := ih (fun e he => h e (List.mem_cons_of_mem _ he))
    have h2 := h a List.mem_cons_self
    simp only [total, List.map_cons, List.sum_cons, List.length_cons] at h1 ⊢
    omega

theorem passes_inv {code : List Nat} {J : List (Nat × Nat)} (L : Layout code J) : ∀ (fuel : Nat) (es : List Entry) (tot : Nat), Inv code J J.length es →
    5 * J.length - total es < fuel ∨ tot = 0 → (tot = 0 → ∀ j, ExactAt code J (sizes es) j) →
    ∃ es', passes code fuel es tot = some es' ∧ Inv code J J.length es' ∧ ∀ j, ExactAt code J (sizes es') j := by
  intro fuel
  induction fuel with
  | zero =>
    intro es tot I h hx
    have : tot = 0 := by omega
    subst this
    exact ⟨es, by unfold passes; rfl, I, hx rfl⟩
  | succ fuel ih =>
    intro es tot I h hx
    cases tot with
    | zero => exact ⟨es, by unfold passes; rfl, I, hx rfl⟩
    | succ tot =>
      have h : 5 * J.length - total es < fuel + 1 := by omega
      obtain ⟨es1, d, hp, hI1, ht, hd⟩ := pass_inv L false es.length 0 es 0 (by rw [I.len]; omega) (by simpa using I)
      unfold passes
      rw [hp]
      simp only []
      rw [Nat.zero_add]
      have := (total_le hI1).2
      exact ih es1 d hI1 (by omega) (fun h0 j => (hd h0).2 j (Nat.zero_le _))

theorem inv_init {code : List Nat} {J : List (Nat × Nat)} (L : Layout code J) : Inv code J 0 (J.map fun a => newEntry a.1 a.2) := by
  have hs : ∀ x, sh (sizes (J.map fun a => newEntry a.1 a.2)) x = x := by
    intro x
    induction J with
    | nil => rfl
    | cons a l ih =>
      have hL : ∀ (l : List (Nat × Nat)), sh (sizes (l.map fun a => newEntry a.1 a.2)) x = x := by
        intro l
        induction l with
        | nil => rfl
        | cons a l ih => simp only [List.map_cons, sizes, newEntry, sh] at ih ⊢; rw [ih]; split <;> omega
      exact hL _
  refine ⟨by simp, ?_⟩
  intro j e o t he hj
  simp only [List.getElem?_map, hj, Option.map_some, Option.some.injEq] at he
  subst he
  rw [hs, hs]
  refine ⟨rfl, rfl, rfl, Nat.le_refl _, by simp [newEntry], ?_⟩
  intro op _
  exact ⟨fun h => absurd h (Nat.not_lt_zero _), cls_pos _⟩

/-- Relaxation ends, with every operand just as large as its offset needs. -/
theorem relax_ends {code : List Nat} {J : List (Nat × Nat)} (L : Layout code J) (fuel : Nat) (hf : 4 * J.length < fuel) :
    ∃ es0 tot es, pass code true J.length 0 (J.map fun a => newEntry a.1 a.2) 0 = some (es0, tot) ∧ passes code fuel es0 tot = some es ∧
      Inv code J J.length es ∧ ∀ j, ExactAt code J (sizes es) j := by
  obtain ⟨es0, d, hp, hI, ht, hd⟩ := pass_inv L true J.length 0 _ 0 (by omega) (by simpa using inv_init L)
  have h1 := total_le (inv_init L)
  have h2 := total_le hI
  obtain ⟨es, h3, h4, h5⟩ := passes_inv L fuel es0 (0 + d) hI (by omega) (fun h0 j => (hd (by omega)).2 j (Nat.zero_le _))
  exact ⟨es0, 0 + d, es, hp, h3, h4, h5⟩

theorem sh_agree (l : List (Nat × Nat)) (o y : Nat) (h : ∀ a ∈ l, (a.1 < y ↔ a.1 < o)) : sh l y + o = sh l o + y := by
  induction l with
  | nil => simp only [sh]; omega
  | cons a l ih =>
    obtain ⟨p, s⟩ := a
    have h1 := ih (fun a ha => h a (List.mem_cons_of_mem _ ha))
    have h2 : p < y ↔ p < o := h (p, s) List.mem_cons_self
    simp only [sh]
    by_cases hp : p < o
    · rw [if_pos hp, if_pos (h2.mpr hp)]; omega
    · rw [if_neg hp, if_neg (fun x => hp (h2.mp x))]; omega

/-- Distance over just one jump. -/
theorem sh_step (l : List (Nat × Nat)) (c o s y : Nat) (h : l[c]? = some (o, s)) (hy : o < y)
    (hu : ∀ i p s', i ≠ c → l[i]? = some (p, s') → (p < y ↔ p < o)) : sh l y = sh l o + (y - o) + (s - 1) := by
  induction l generalizing c with
  | nil => simp at h
  | cons a l ih =>
    cases c with
    | zero =>
      simp only [List.getElem?_cons_zero, Option.some.injEq] at h
      subst h
      have := sh_agree l o y (fun a ha => by
        obtain ⟨i, hi⟩ := List.mem_iff_getElem?.mp ha
        exact hu (i + 1) a.1 a.2 (by omega) (by simpa using hi))
      simp only [sh]
      rw [if_pos hy, if_neg (Nat.lt_irrefl _)]; omega
    | succ c =>
      simp only [List.getElem?_cons_succ] at h
      have h1 := ih c h (fun i p s' hi hl => hu (i + 1) p s' (by omega) (by simpa using hl))
      obtain ⟨p, s'⟩ := a
      have h2 := hu 0 p s' (by omega) (by simp)
      simp only [sh]
      by_cases hp : p < o
      · rw [if_pos hp, if_pos (h2.mpr hp)]; omega
      · rw [if_neg hp, if_neg (fun x => hp (h2.mp x))]; omega

end Verif.Compiler
