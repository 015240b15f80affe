import Verif.Compiler.JumpWrite

/-!
C30: every jump lands on its intended instruction after relaxation.
-/
namespace Verif.Props.C30
open Verif.Compiler

/-! ## Specification -/

/-- Layout of jump instructions emitted with a one-byte offset: where the offset is, and the size of the instruction. -/
def shape : Nat → Option (Nat × Nat)
  | 0xB5 => some (1, 2)        -- JUMP          offset
  | 0xB6 => some (1, 3)        -- JUMP_COND     offset, register
  | 0xB7 => some (1, 3)        -- JUMP_NOT_COND offset, register
  | 0xB8 => some (3, 4)        -- NEXT_JUMP     register, register, offset
  | 0xC6 => some (2, 3)        -- CATCH         register, offset
  | _ => none

/-- Offset `x` is not in the middle of any of the jumps. -/
def Boundary (code : List Nat) (jumps : List (Nat × Nat)) (x : Nat) : Prop :=
  ∀ a ∈ jumps, ∀ op q n, code[a.1]? = some op → shape op = some (q, n) → x ≤ a.1 ∨ a.1 + n ≤ x

/-- Generated code with jumps given as pairs of (offset of the instruction, offset of its target): they are in the code in this order without
overlaps, and no target is in the middle of a jump. 2097152 is the limit of code size (KOS_MAX_CODE_SIZE). -/
structure Generated (code : List Nat) (jumps : List (Nat × Nat)) : Prop where
  size : code.length ≤ 2097152
  op : ∀ a ∈ jumps, ∃ op q n, code[a.1]? = some op ∧ shape op = some (q, n) ∧ a.1 + n ≤ code.length
  order : jumps.Pairwise fun a b => ∀ op q n, code[a.1]? = some op → shape op = some (q, n) → a.1 + n ≤ b.1
  target : ∀ a ∈ jumps, a.2 ≤ code.length ∧ Boundary code jumps a.2

/-- Where the offset of a jump is in the code. -/
def operand (code : List Nat) (o : Nat) : Nat :=
  match code[o]? with
  | none => o
  | some op =>
    match shape op with
    | none => o
    | some (q, _) => o + q

/-- New place of offset `x` if the operands which are at `(offset, size)` take `size` bytes instead of one. -/
def place (ops : List (Nat × Nat)) (x : Nat) : Nat := x + ((ops.filter fun a => a.1 < x).map fun a => a.2 - 1).sum

/-! ## Theorems -/

theorem shape_iff (op q n : Nat) : shape op = some (q, n) ↔ isJump op = true ∧ q = immPos op ∧ n = baseSize op + 1 := by
  unfold shape isJump immPos baseSize
  simp only [Bool.decide_or, Bool.or_eq_true, decide_eq_true_eq]
  split
  · simp; omega
  · simp; omega
  · simp; omega
  · simp; omega
  · simp; omega
  · rename_i h1 h2 h3 h4 h5
    simp only [reduceCtorEq, false_iff]
    intro h
    rcases h.1 with h | h | h | h | h
    · exact h5 h
    · exact h4 h
    · exact h1 h
    · exact h2 h
    · exact h3 h

theorem place_eq (l : List (Nat × Nat)) (x : Nat) : place l x = sh l x := by
  induction l with
  | nil => rfl
  | cons a l ih =>
    obtain ⟨o, s⟩ := a
    simp only [place, sh, List.filter_cons] at ih ⊢
    by_cases h : o < x
    · simp only [h, decide_true, if_true, List.map_cons, List.sum_cons]; omega
    · simp only [h, decide_false, if_false, Bool.false_eq_true]; omega

theorem Generated.layout {code : List Nat} {jumps : List (Nat × Nat)} (G : Generated code jumps) : Layout code jumps := by
  refine ⟨G.size, ?_, ?_, ?_⟩
  · intro a ha
    obtain ⟨op, q, n, h1, h2, h3⟩ := G.op a ha
    obtain ⟨h4, _, rfl⟩ := (shape_iff op q n).mp h2
    exact ⟨op, h1, h4, by omega⟩
  · rw [List.pairwise_iff_getElem]
    intro i j hi hj hij op ho
    have := List.pairwise_iff_getElem.mp G.order i j hi hj hij
    obtain ⟨op', q, n, h1, h2, h3⟩ := G.op _ (List.getElem_mem hi)
    rw [ho] at h1; cases h1
    have h4 := this op q n ho h2
    obtain ⟨_, _, rfl⟩ := (shape_iff op q n).mp h2
    omega
  · intro a ha
    refine ⟨(G.target a ha).1, ?_⟩
    intro b hb op ho
    obtain ⟨op', q, n, h1, h2, h3⟩ := G.op b hb
    rw [ho] at h1; cases h1
    have h4 := (G.target a ha).2 b hb op q n ho h2
    obtain ⟨_, _, rfl⟩ := (shape_iff op q n).mp h2
    omega

theorem sh_congr (es : List Entry) (f g : Entry → Nat × Nat) (x : Nat) (h : ∀ e ∈ es, (f e).2 = (g e).2 ∧ ((f e).1 < x ↔ (g e).1 < x)) :
    sh (es.map f) x = sh (es.map g) x := by
  induction es with
  | nil => rfl
  | cons e es ih =>
    have h1 := ih (fun a ha => h a (List.mem_cons_of_mem _ ha))
    have h2 := h e List.mem_cons_self
    simp only [List.map_cons, sh]
    rw [h1, h2.1]
    by_cases hx : (f e).1 < x
    · rw [if_pos hx, if_pos (h2.2.mp hx)]
    · rw [if_neg hx, if_neg (fun h => hx (h2.2.mpr h))]

/-- **C30.** Take any generated code of legal size, with any number of forward and backward jumps, and its address-to-line table.  Then relaxation
ends without a failed assertion, and there are sizes of jump offsets such that, with `place` saying where each byte goes:
* the code gets just as much longer as the offsets do,
* every byte other than jump offsets is in its new place,
* the virtual machine decodes every jump to the new places of the instruction which followed it and of its target, and
* entries of the table point to new places of the instructions they pointed to. -/
theorem C30_jumps_land (code : List Nat) (jumps : List (Nat × Nat)) (lines : List LineAddr) (G : Generated code jumps)
    (hs : lines.Pairwise fun a b => a.offs ≤ b.offs) (hb : ∀ a ∈ lines, Boundary code jumps a.offs) (fuel : Nat) (hf : 4 * jumps.length < fuel) :
    ∃ sizes : List Nat, sizes.length = jumps.length ∧ (∀ s ∈ sizes, 1 ≤ s ∧ s ≤ 5) ∧
      ∃ code' lines', updateJumps fuel code (jumps.map fun a => newEntry a.1 a.2) lines = some (code', lines') ∧
        let at_ := place ((jumps.map fun a => operand code a.1).zip sizes)
        code'.length = at_ code.length ∧
        (∀ x, (∀ a ∈ jumps, operand code a.1 ≠ x) → code'[at_ x]? = code[x]?) ∧
        (∀ a ∈ jumps, ∀ op q n, code[a.1]? = some op → shape op = some (q, n) → decodeJump code' (at_ a.1) = some (at_ (a.1 + n), (at_ a.2 : Int))) ∧
        lines' = lines.map fun a => ⟨at_ a.offs, a.line⟩ := by
  have L := G.layout
  obtain ⟨es0, tot, es, h1, h2, hI, hx⟩ := relax_ends L fuel hf
  have F : Final code jumps es := ⟨hI, hx⟩
  have hent : ∀ e ∈ es, ∃ a ∈ jumps, ∃ op q n, e.orig = a.1 ∧ code[a.1]? = some op ∧ shape op = some (q, n) ∧ q = immPos op ∧ n = baseSize op + 1 ∧
      isJump op = true ∧ 1 ≤ e.imm ∧ e.imm ≤ 5 ∧ opOf code e = operand code a.1 ∧ opOf code e = a.1 + q ∧ (packed e).length = e.imm := by
    intro e he
    obtain ⟨j, hj⟩ := List.mem_iff_getElem?.mp he
    have hlt : j < jumps.length := by rw [← hI.len]; exact (List.getElem?_eq_some_iff.mp hj).1
    have hJ := List.getElem?_eq_getElem hlt
    obtain ⟨k1, k2, k3, k4, k5, k6⟩ := hI.ent j e jumps[j].1 jumps[j].2 hj hJ
    obtain ⟨op, q, n, m1, m2, m3⟩ := G.op jumps[j] (List.getElem_mem hlt)
    obtain ⟨n1, n2, n3⟩ := (shape_iff op q n).mp m2
    refine ⟨jumps[j], List.getElem_mem hlt, op, q, n, k1, m1, m2, n2, n3, n1, k4, k5, ?_, ?_, (F.packed_length L hj hJ).1⟩
    · unfold opOf operand; rw [k1, m1]; simp only [m2, Option.getD_some]; omega
    · unfold opOf; rw [k1, m1, n2]; rfl
  -- places
  have hops : (jumps.map fun a => operand code a.1).zip (es.map (·.imm)) = es.map fun e => (opOf code e, e.imm) := by
    apply List.ext_getElem?
    intro i
    by_cases hi : i < es.length
    · have hi' : i < jumps.length := by rw [← hI.len]; exact hi
      obtain ⟨e, he⟩ : ∃ e, es[i]? = some e := ⟨_, List.getElem?_eq_getElem hi⟩
      obtain ⟨a, hJ⟩ : ∃ a, jumps[i]? = some a := ⟨_, List.getElem?_eq_getElem hi'⟩
      obtain ⟨k1, _⟩ := hI.ent i e a.1 a.2 he hJ
      have : opOf code e = operand code a.1 := by
        obtain ⟨op, q, n, m1, m2, m3⟩ := G.op a (List.mem_of_getElem? hJ)
        obtain ⟨n1, n2, n3⟩ := (shape_iff op q n).mp m2
        unfold opOf operand; rw [k1, m1]; simp only [m2, Option.getD_some]; omega
      have hz : ((jumps.map fun a => operand code a.1).zip (es.map (·.imm)))[i]? = some (operand code a.1, e.imm) := by
        rw [List.getElem?_zip_eq_some]; exact ⟨by simp [hJ], by simp [he]⟩
      rw [hz, List.getElem?_map, he, Option.map_some, this]
    · rw [List.getElem?_eq_none (by simp [hI.len] at hi ⊢; omega), List.getElem?_eq_none (by simp; omega)]
  have hlens : lens (edits code es) = es.map fun e => (opOf code e, e.imm) := by
    simp only [lens, edits, List.map_map]
    apply List.map_congr_left
    intro e he
    obtain ⟨a, ha, op, q, n, r⟩ := hent e he
    simp only [Function.comp, r.2.2.2.2.2.2.2.2.2.2]
  have hplace : ∀ x, place ((jumps.map fun a => operand code a.1).zip (es.map (·.imm))) x = sh (lens (edits code es)) x := by
    intro x; rw [place_eq, hops, hlens]
  have hbound : ∀ x, Boundary code jumps x → sh (Verif.Compiler.sizes es) x = sh (lens (edits code es)) x := by
    intro x hx
    rw [hlens]
    apply sh_congr
    intro e he
    obtain ⟨a, ha, op, q, n, r1, r2, r3, r4, r5, r6, r7, r8, r9, r10, r11⟩ := hent e he
    have := hx a ha op q n r2 r3
    have him := immPos_le op r6
    exact ⟨rfl, by simp only; omega⟩
  have hchain : Chain code 0 0 es := F.chain L es [] 0 rfl (fun _ _ => Nat.zero_le _)
  have hok := hchain.editOk
  have hw := writeJumps_eq code es 0 0 [] lines hchain (Nat.zero_le _) rfl hs
  simp only [List.nil_append, List.drop_zero, Nat.add_zero] at hw
  have hget := ex_get code (edits code es) 0
  have hdrop := ex_drop code (edits code es) 0
  have hlen := ex_length code (edits code es) 0 hok (Nat.zero_le _)
  simp only [List.drop_zero, Nat.sub_zero] at hget hdrop hlen
  refine ⟨es.map (·.imm), by simp [hI.len], ?_, ex 0 (edits code es) code, lines.map fun a => ⟨sh (Verif.Compiler.sizes es) a.offs, a.line⟩, ?_, ?_, ?_, ?_, ?_⟩
  · intro s hs'
    obtain ⟨e, he, rfl⟩ := List.mem_map.mp hs'
    obtain ⟨a, ha, op, q, n, r1, r2, r3, r4, r5, r6, r7, r8, _⟩ := hent e he
    exact ⟨r7, r8⟩
  · unfold updateJumps
    rw [List.length_map, h1]
    simp only []
    rw [h2]
    simp only []
    exact hw
  · rw [hplace, hlen]
  · intro x hne
    rw [hplace]
    refine hget x hok (Nat.zero_le _) ?_
    intro a ha
    simp only [edits, List.mem_map] at ha
    obtain ⟨e, he, rfl⟩ := ha
    obtain ⟨a, ha, op, q, n, r⟩ := hent e he
    have := hne a ha
    rw [r.2.2.2.2.2.2.2.2.1]
    exact this
  · intro a ha op q n ho hq
    obtain ⟨hq1, hq2, hq3⟩ := (shape_iff op q n).mp hq
    have him := immPos_le op hq1
    obtain ⟨j, hj⟩ := List.mem_iff_getElem?.mp ha
    have hlt : j < es.length := by rw [hI.len]; exact (List.getElem?_eq_some_iff.mp hj).1
    have he := List.getElem?_eq_getElem hlt
    obtain ⟨k1, k2, k3, k4, k5, k6⟩ := hI.ent j es[j] a.1 a.2 he hj
    have hpl := F.packed_length L he hj
    have hbase := (k6 op ho).1 (by rw [← hI.len]; exact hlt)
    have hopj : opOf code es[j] = a.1 + q := by unfold opOf; rw [k1, ho, hq2]; rfl
    have hmem : (a.1 + q, packed es[j]) ∈ edits code es := by
      simp only [edits, List.mem_map]; exact ⟨es[j], List.getElem_mem hlt, by rw [hopj]⟩
    obtain ⟨rest, hrest⟩ := hdrop (a.1 + q) (packed es[j]) hok hmem
    -- places of parts of the instruction
    have hself : Boundary code jumps a.1 := by
      intro b hb' op' q' n' ho' hq'
      obtain ⟨i, hi⟩ := List.mem_iff_getElem?.mp hb'
      rcases Nat.lt_trichotomy i j with h | h | h
      · right
        obtain ⟨hi1, hi2⟩ := List.getElem?_eq_some_iff.mp hi
        obtain ⟨hj1, hj2⟩ := List.getElem?_eq_some_iff.mp hj
        have := List.pairwise_iff_getElem.mp G.order i j hi1 hj1 h op' q' n'
        rw [hi2, hj2] at this
        exact this ho' hq'
      · subst h; rw [hi] at hj; cases hj; left; exact Nat.le_refl _
      · left; have := L.lt hj hi h; omega
    have hend : Boundary code jumps (a.1 + n) := by
      intro b hb' op' q' n' ho' hq'
      obtain ⟨i, hi⟩ := List.mem_iff_getElem?.mp hb'
      rcases Nat.lt_trichotomy i j with h | h | h
      · right
        obtain ⟨hi1, hi2⟩ := List.getElem?_eq_some_iff.mp hi
        obtain ⟨hj1, hj2⟩ := List.getElem?_eq_some_iff.mp hj
        have := List.pairwise_iff_getElem.mp G.order i j hi1 hj1 h op' q' n'
        rw [hi2, hj2] at this
        have := this ho' hq'
        omega
      · subst h; rw [hi] at hj; cases hj
        rw [ho] at ho'; cases ho'
        rw [hq] at hq'; cases hq'
        right; exact Nat.le_refl _
      · left
        obtain ⟨hi1, hi2⟩ := List.getElem?_eq_some_iff.mp hi
        obtain ⟨hj1, hj2⟩ := List.getElem?_eq_some_iff.mp hj
        have := List.pairwise_iff_getElem.mp G.order j i hj1 hi1 h op q n
        rw [hi2, hj2] at this
        exact this ho hq
    -- position of the operand
    have hopn : ∀ b ∈ jumps, operand code b.1 < a.1 + q → operand code b.1 < a.1 := by
      intro b hb' hlt'
      obtain ⟨op', q', n', m1, m2, m3⟩ := G.op b hb'
      have hob : operand code b.1 = b.1 + q' := by unfold operand; rw [m1]; simp only [m2]
      obtain ⟨x1, x2, x3⟩ := (shape_iff op' q' n').mp m2
      have him' := immPos_le op' x1
      rcases hself b hb' op' q' n' m1 m2 with h | h
      · rcases hend b hb' op' q' n' m1 m2 with h' | h'
        · omega
        · have h'' : a.1 = b.1 := by
            rcases Nat.lt_or_ge a.1 b.1 with hl | hl
            · obtain ⟨i, hi⟩ := List.mem_iff_getElem?.mp hb'
              have := (L.lt_iff hj hi).mp hl
              obtain ⟨hi1, hi2⟩ := List.getElem?_eq_some_iff.mp hi
              obtain ⟨hj1, hj2⟩ := List.getElem?_eq_some_iff.mp hj
              have := List.pairwise_iff_getElem.mp G.order j i hj1 hi1 this op q n
              rw [hi2, hj2] at this
              have := this ho hq
              omega
            · omega
          rw [h''] at ho
          rw [ho] at m1; cases m1
          rw [hq] at m2; cases m2
          omega
      · omega
    have hpos : sh (lens (edits code es)) (a.1 + q) = sh (lens (edits code es)) a.1 + q := by
      have hgen : ∀ l : List (Nat × Nat), (∀ b ∈ l, b.1 < a.1 + q → b.1 < a.1) → sh l (a.1 + q) = sh l a.1 + q := by
        intro l
        induction l with
        | nil => intro _; rfl
        | cons b l ih =>
          intro h
          obtain ⟨p, s⟩ := b
          have h1 := ih (fun b hb => h b (List.mem_cons_of_mem _ hb))
          have h2 := h (p, s) List.mem_cons_self
          simp only [sh] at h2 ⊢
          rw [h1]
          by_cases hx : p < a.1
          · rw [if_pos hx, if_pos (by omega)]; omega
          · rw [if_neg hx, if_neg (fun h => hx (h2 h))]; omega
      apply hgen
      intro b hb'
      rw [hlens] at hb'
      obtain ⟨e, he', rfl⟩ := List.mem_map.mp hb'
      obtain ⟨a', ha', r⟩ := hent e he'
      obtain ⟨op', q', n', r1, r2, r3, r4, r5, r6, r7, r8, r9, r10, r11⟩ := r
      simp only [r9]
      exact hopn a' ha'
    have hnext : sh (lens (edits code es)) (a.1 + n) = sh (lens (edits code es)) a.1 + baseSize op + es[j].imm := by
      rw [← hbound _ hend, ← hbound _ hself]
      have h7 := sh_step (Verif.Compiler.sizes es) j a.1 es[j].imm (a.1 + n) (by rw [sizes_getElem he, k1]) (by omega) (by
        intro i p s' hij hi
        simp only [Verif.Compiler.sizes, List.getElem?_map, Option.map_eq_some_iff, Prod.mk.injEq] at hi
        obtain ⟨f, hf, hf1, hf2⟩ := hi
        have hil : i < jumps.length := by rw [← hI.len]; exact (List.getElem?_eq_some_iff.mp hf).1
        have hJi := List.getElem?_eq_getElem hil
        obtain ⟨op', q', n', m1, m2, m3⟩ := G.op _ (List.getElem_mem hil)
        have hfo := (hI.ent i f _ _ hf hJi).1
        have e1 := hself _ (List.getElem_mem hil) op' q' n' m1 m2
        have e2 := hend _ (List.getElem_mem hil) op' q' n' m1 m2
        have e3 := L.lt_iff hj hJi
        have e4 := L.lt_iff hJi hj
        have e5 : j < i → a.1 + n ≤ jumps[i].1 := by
          intro h
          obtain ⟨hj1, hj2⟩ := List.getElem?_eq_some_iff.mp hj
          have := List.pairwise_iff_getElem.mp G.order j i hj1 hil h op q n
          rw [hj2] at this
          exact this ho hq
        rw [hfo] at hf1
        change jumps[i].1 = p at hf1
        change jumps[i].1 + n' ≤ code.length at m3
        change a.1 ≤ jumps[i].1 ∨ jumps[i].1 + n' ≤ a.1 at e1
        change a.1 + n ≤ jumps[i].1 ∨ jumps[i].1 + n' ≤ a.1 + n at e2
        change a.1 < jumps[i].1 ↔ j < i at e3
        change jumps[i].1 < a.1 ↔ i < j at e4
        omega)
      omega
    rw [hplace, hplace, hplace]
    have hopc : (ex 0 (edits code es) code)[sh (lens (edits code es)) a.1]? = some op := by
      rw [← ho]
      apply hget a.1 hok (Nat.zero_le _)
      intro b hb'
      simp only [edits, List.mem_map] at hb'
      obtain ⟨e, he', rfl⟩ := hb'
      obtain ⟨a', ha', op', q', n', r1, r2, r3, r4, r5, r6, r7, r8, r9, r10, r11⟩ := hent e he'
      have := hself a' ha' op' q' n' r2 r3
      have him' := immPos_le op' r6
      simp only
      omega
    unfold decodeJump
    rw [hopc]
    simp only [hq1]
    rw [if_neg (by simp), ← hq2, ← hpos, hrest]
    unfold packed
    have hrt := (C04_simm_roundtrip (BitVec.ofInt 32 ((es[j].target : Int) - (es[j].instr + es[j].base + es[j].imm : Nat))) rest).1
      (by rw [toInt_ofInt32 _ ⟨by omega, by omega⟩]; exact ⟨by have := hpl.2.1; omega, by have := hpl.2.2; omega⟩)
    rw [hrt]
    simp only []
    have hpk : (writeSimm (BitVec.ofInt 32 ((es[j].target : Int) - (es[j].instr + es[j].base + es[j].imm : Nat)))).length = es[j].imm := hpl.1
    rw [hpk, hnext, toInt_ofInt32 _ ⟨by omega, by omega⟩]
    simp only [Option.some.injEq, Prod.mk.injEq, true_and]
    have ht := (G.target a ha).2
    rw [← hbound _ ht, ← hbound _ hself, ← k3, ← k2, hbase]
    omega
  · apply List.map_congr_left
    intro a ha
    rw [hplace, hbound _ (hb a ha)]

/-- Example: with the code of 3 jumps the first, forward one needs a second byte only since the one in between is made longer. -/
def exampleCode : List Nat :=
  [0xB5, 0] ++ List.replicate 60 0 ++ [0xB6, 0, 7] ++ List.replicate 100 0 ++ [0xB8, 1, 2, 0] ++ [0xC0, 0]

def exampleJumps : List (Nat × Nat) := [(0, 65), (62, 165), (165, 2)]

theorem exampleOps : exampleCode[0]? = some 0xB5 ∧ exampleCode[62]? = some 0xB6 ∧ exampleCode[165]? = some 0xB8 ∧ exampleCode.length = 171 := by
  decide +kernel

example : Generated exampleCode exampleJumps := by
  obtain ⟨h0, h1, h2, hl⟩ := exampleOps
  refine ⟨by omega, ?_, ?_, ?_⟩
  · intro a ha
    simp only [exampleJumps, List.mem_cons, List.not_mem_nil, or_false] at ha
    rcases ha with rfl | rfl | rfl
    · exact ⟨0xB5, 1, 2, h0, rfl, by simp only; omega⟩
    · exact ⟨0xB6, 1, 3, h1, rfl, by simp only; omega⟩
    · exact ⟨0xB8, 3, 4, h2, rfl, by simp only; omega⟩
  · simp only [exampleJumps, List.pairwise_cons, List.mem_cons, List.not_mem_nil, or_false]
    refine ⟨?_, ?_, by simp, List.Pairwise.nil⟩
    · rintro b (rfl | rfl) op q n h hq <;> (simp only [h0, Option.some.injEq] at h; subst h; cases hq; decide)
    · rintro b rfl op q n h hq
      simp only [h1, Option.some.injEq] at h; subst h; cases hq; decide
  · intro a ha
    simp only [exampleJumps, List.mem_cons, List.not_mem_nil, or_false] at ha
    refine ⟨by rcases ha with rfl | rfl | rfl <;> (simp only; omega), ?_⟩
    intro b hb op q n h hq
    simp only [exampleJumps, List.mem_cons, List.not_mem_nil, or_false] at hb
    rcases hb with rfl | rfl | rfl <;> (simp only [h0, h1, h2, Option.some.injEq] at h; subst h; cases hq) <;>
      rcases ha with rfl | rfl | rfl <;> decide

/-- Sizes after the first pass and after the second one, and the offsets of the instructions and of their targets. -/
example : (pass exampleCode true 3 0 (exampleJumps.map fun a => newEntry a.1 a.2) 0).map (fun r => (r.1.map (·.imm), r.2)) = some ([1, 2, 2], 2) ∧
    ((pass exampleCode true 3 0 (exampleJumps.map fun a => newEntry a.1 a.2) 0).bind fun r => passes exampleCode 13 r.1 r.2).map
      (fun es => es.map fun e => (e.instr, e.target, e.imm)) = some [(0, 67, 2), (63, 167, 2), (167, 3, 2)] := by
  decide +kernel

end Verif.Props.C30
