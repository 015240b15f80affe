import Verif.Compiler.JumpLemmas

/-! The final pass over jumps: what it makes of the code and of the address-to-line table. -/
namespace Verif.Compiler

/-- Bytes of the offset of a jump. -/
def packed (e : Entry) : List Nat := writeSimm (BitVec.ofInt 32 ((e.target : Int) - (e.instr + e.base + e.imm : Nat)))

/-- Code from offset `off` on, with the bytes at some offsets replaced. -/
def ex : Nat → List (Nat × List Nat) → List Nat → List Nat
  | _, [], rest => rest
  | off, (p, b) :: l, rest => rest.take (p - off) ++ (b ++ ex (p + 1) l (rest.drop (p + 1 - off)))

/-- Entries from one on can be written in order. -/
def Chain (code : List Nat) : Nat → Nat → List Entry → Prop
  | _, _, [] => True
  | added, P, e :: es => ∃ op, code[e.orig]? = some op ∧ isJump op = true ∧ e.orig + baseSize op + 1 ≤ code.length ∧ (packed e).length = e.imm ∧
    1 ≤ e.imm ∧ P ≤ e.orig ∧ e.instr = e.orig + added ∧ Chain code (added + (e.imm - 1)) (e.orig + immPos op + 1) es

def opOf (code : List Nat) (e : Entry) : Nat := e.orig + immPos (code[e.orig]?.getD 0)

def edits (code : List Nat) (es : List Entry) : List (Nat × List Nat) := es.map fun e => (opOf code e, packed e)

theorem immPos_le (op : Nat) (h : isJump op = true) : 1 ≤ immPos op ∧ immPos op ≤ baseSize op := by
  unfold immPos baseSize
  simp only [isJump, Bool.decide_or, Bool.or_eq_true, decide_eq_true_eq] at h
  repeat' split
  all_goals omega

theorem sh_id (l : List (Nat × Nat)) (x : Nat) (h : ∀ a ∈ l, x ≤ a.1) : sh l x = x := by
  induction l with
  | nil => rfl
  | cons a l ih =>
    obtain ⟨o, s⟩ := a
    have h1 := h (o, s) List.mem_cons_self
    simp only [sh] at h1 ⊢
    rw [ih (fun a ha => h a (List.mem_cons_of_mem _ ha)), if_neg (by omega), Nat.add_zero]

theorem Chain.orig_ge {code : List Nat} : ∀ {es : List Entry} {added P : Nat}, Chain code added P es → ∀ a ∈ es, P ≤ a.orig := by
  intro es
  induction es with
  | nil => intro _ _ _ a ha; cases ha
  | cons e es ih =>
    intro added P h a ha
    obtain ⟨op, h1, h2, h3, h4, h5, h6, h7, h8⟩ := h
    rcases List.mem_cons.mp ha with rfl | ha
    · exact h6
    · have := ih h8 a ha; omega

theorem moveLines_eq (o added : Nat) (lines : List LineAddr) (hs : lines.Pairwise fun a b => a.offs ≤ b.offs) :
    ∃ l1, lines = l1 ++ (moveLines o added lines).2 ∧ (∀ a ∈ l1, a.offs ≤ o) ∧ (∀ a ∈ (moveLines o added lines).2, o < a.offs) ∧
      (moveLines o added lines).1 = l1.map fun a => ⟨a.offs + added, a.line⟩ := by
  induction lines with
  | nil => exact ⟨[], rfl, by simp, by simp [moveLines], rfl⟩
  | cons a l ih =>
    obtain ⟨h1, h2⟩ := List.pairwise_cons.mp hs
    unfold moveLines
    by_cases h : a.offs ≤ o
    · rw [if_pos h]
      obtain ⟨l1, k1, k2, k3, k4⟩ := ih h2
      refine ⟨a :: l1, by simp only [List.cons_append]; rw [← k1], ?_, k3, by simp [k4]⟩
      intro x hx
      rcases List.mem_cons.mp hx with rfl | hx
      · exact h
      · exact k2 x hx
    · rw [if_neg h]
      refine ⟨[], rfl, by simp, ?_, rfl⟩
      intro x hx
      rcases List.mem_cons.mp hx with rfl | hx
      · omega
      · have := h1 x hx; omega

theorem writeJumpOffs_eq (code D : List Nat) (P added : Nat) (e : Entry) (op : Nat) (hP : P ≤ e.orig) (hD : D.length = P + added)
    (ho : code[e.orig]? = some op) (hj : isJump op = true) (hl : e.orig + baseSize op + 1 ≤ code.length) (hp : (packed e).length = e.imm)
    (hi : e.instr = e.orig + added) :
    writeJumpOffs (D ++ code.drop P) e = some ((D ++ (code.drop P).take (e.orig + immPos op - P) ++ packed e) ++ code.drop (e.orig + immPos op + 1)) := by
  have him := immPos_le op hj
  have hget : (D ++ code.drop P)[e.instr]? = some op := by
    rw [List.getElem?_append_right (by omega), List.getElem?_drop, ← ho]; congr 1; omega
  unfold writeJumpOffs
  rw [hget]
  simp only [hj]
  rw [if_neg (by simp)]
  have hp' : (writeSimm (BitVec.ofInt 32 ((e.target : Int) - (e.instr + e.base + e.imm : Nat)))).length = e.imm := hp
  rw [if_neg (by rw [hp']; simp)]
  rw [if_pos (by simp only [List.length_append, List.length_drop]; omega)]
  have e1 : (D ++ code.drop P).take (e.instr + immPos op) = D ++ (code.drop P).take (e.orig + immPos op - P) := by
    rw [List.take_append, List.take_of_length_le (by omega)]; congr 2; omega
  have e2 : (D ++ code.drop P).drop (e.instr + immPos op + 1) = code.drop (e.orig + immPos op + 1) := by
    rw [List.drop_append, List.drop_eq_nil_of_le (by omega), List.nil_append, List.drop_drop]; congr 1; omega
  rw [e1, e2]
  rfl

theorem writeJumps_eq (code : List Nat) : ∀ (es : List Entry) (added P : Nat) (D : List Nat) (lines : List LineAddr), Chain code added P es →
    P ≤ code.length → D.length = P + added → lines.Pairwise (fun a b => a.offs ≤ b.offs) →
    writeJumps es (D ++ code.drop P) lines added =
      some (D ++ ex P (edits code es) (code.drop P), lines.map fun a => ⟨sh (sizes es) a.offs + added, a.line⟩) := by
  intro es
  induction es with
  | nil => intro added P D lines _ _ _ _; rfl
  | cons e es ih =>
    intro added P D lines h hP hD hs
    have hge := h.orig_ge
    obtain ⟨op, h1, h2, h3, h4, h5, h6, h7, h8⟩ := h
    have him := immPos_le op h2
    unfold writeJumps
    rw [writeJumpOffs_eq code D P added e op h6 hD h1 h2 h3 h4 h7]
    simp only []
    obtain ⟨l1, k1, k2, k3, k4⟩ := moveLines_eq e.orig added lines hs
    have hs2 : (moveLines e.orig added lines).2.Pairwise (fun a b => a.offs ≤ b.offs) := by
      rw [k1] at hs; exact (List.pairwise_append.mp hs).2.1
    rw [ih (added + (e.imm - 1)) (e.orig + immPos op + 1) (D ++ (code.drop P).take (e.orig + immPos op - P) ++ packed e) _ h8 (by omega)
      (by simp only [List.length_append, List.length_take, List.length_drop]; omega) hs2]
    simp only [Option.some.injEq, Prod.mk.injEq]
    constructor
    · have hop : opOf code e = e.orig + immPos op := by simp [opOf, h1]
      simp only [edits, List.map_cons, ex, hop, List.append_assoc, List.drop_drop]
      rw [show P + (e.orig + immPos op + 1 - P) = e.orig + immPos op + 1 by omega]
    · have hes : ∀ a ∈ sizes (e :: es), e.orig ≤ a.1 := by
        intro a ha
        simp only [sizes, List.mem_map] at ha
        obtain ⟨f, hf, rfl⟩ := ha
        rcases List.mem_cons.mp hf with rfl | hf
        · exact Nat.le_refl _
        · have := h8.orig_ge f hf; simp only; omega
      generalize (moveLines e.orig added lines).2 = m2 at *
      rw [k4, k1, List.map_append]
      congr 1
      · apply List.map_congr_left
        intro a ha
        rw [sh_id _ _ (fun b hb => Nat.le_trans (k2 a ha) (hes b hb))]
      · apply List.map_congr_left
        intro a ha
        have := k3 a ha
        simp only [sizes, List.map_cons, sh, if_pos this]
        congr 1
        omega

/-! ## Reading the result -/

def EditOk (n : Nat) : Nat → List (Nat × List Nat) → Prop
  | _, [] => True
  | off, (p, b) :: l => off ≤ p ∧ p < n ∧ 1 ≤ b.length ∧ EditOk n (p + 1) l

def lens (l : List (Nat × List Nat)) : List (Nat × Nat) := l.map fun a => (a.1, a.2.length)

theorem EditOk.ge {n : Nat} : ∀ {l : List (Nat × List Nat)} {off : Nat}, EditOk n off l → ∀ a ∈ lens l, off ≤ a.1 := by
  intro l
  induction l with
  | nil => intro _ _ a ha; cases ha
  | cons x l ih =>
    intro off h a ha
    obtain ⟨p, b⟩ := x
    obtain ⟨h1, h2, h3, h4⟩ := h
    simp only [lens, List.map_cons, List.mem_cons] at ha
    rcases ha with rfl | ha
    · exact h1
    · have := ih h4 a ha; omega

theorem ex_get (code : List Nat) : ∀ (l : List (Nat × List Nat)) (off x : Nat), EditOk code.length off l → off ≤ x → (∀ a ∈ l, a.1 ≠ x) →
    (ex off l (code.drop off))[sh (lens l) x - off]? = code[x]? := by
  intro l
  induction l with
  | nil =>
    intro off x _ hx _
    simp only [ex, lens, List.map_nil, sh]
    rw [List.getElem?_drop]; congr 1; omega
  | cons a l ih =>
    intro off x h hx hne
    obtain ⟨p, b⟩ := a
    have hge := h.ge
    obtain ⟨h1, h2, h3, h4⟩ := h
    have hp : p ≠ x := hne (p, b) List.mem_cons_self
    simp only [ex]
    by_cases hlt : x < p
    · have hid : sh (lens ((p, b) :: l)) x = x := by
        simp only [lens, List.map_cons, sh]
        rw [if_neg (by omega)]
        have := sh_id (lens l) x (fun a ha => by have := h4.ge a ha; omega)
        simp only [lens] at this
        omega
      rw [hid, List.getElem?_append_left (by simp only [List.length_take, List.length_drop]; omega), List.getElem?_take,
        if_pos (by omega), List.getElem?_drop]
      congr 1; omega
    · have hxp : p < x := by omega
      have := ih (p + 1) x h4 (by omega) (fun a ha => hne a (List.mem_cons_of_mem _ ha))
      rw [← this]
      have hle := sh_le (lens l) x
      have hs : sh (lens ((p, b) :: l)) x = sh (lens l) x + (b.length - 1) := by
        simp only [lens, List.map_cons, sh]; rw [if_pos hxp]
      have htk : ((code.drop off).take (p - off)).length = p - off := by simp only [List.length_take, List.length_drop]; omega
      rw [hs, List.getElem?_append_right (by omega), htk, List.getElem?_append_right (by omega), List.drop_drop]
      rw [show off + (p + 1 - off) = p + 1 by omega]
      congr 1; omega

theorem ex_length (code : List Nat) : ∀ (l : List (Nat × List Nat)) (off : Nat), EditOk code.length off l → off ≤ code.length →
    (ex off l (code.drop off)).length = sh (lens l) code.length - off := by
  intro l
  induction l with
  | nil => intro off _ _; simp [ex, lens, sh]
  | cons a l ih =>
    intro off h ho
    obtain ⟨p, b⟩ := a
    obtain ⟨h1, h2, h3, h4⟩ := h
    have hs : sh (lens ((p, b) :: l)) code.length = sh (lens l) code.length + (b.length - 1) := by
      simp only [lens, List.map_cons, sh]; rw [if_pos h2]
    have hle := sh_le (lens l) code.length
    simp only [ex, List.length_append, List.length_take, List.length_drop, List.drop_drop]
    rw [show off + (p + 1 - off) = p + 1 by omega, ih (p + 1) h4 (by omega), hs]
    omega

theorem ex_drop (code : List Nat) : ∀ (l : List (Nat × List Nat)) (off : Nat) (p : Nat) (b : List Nat), EditOk code.length off l → (p, b) ∈ l →
    ∃ rest, (ex off l (code.drop off)).drop (sh (lens l) p - off) = b ++ rest := by
  intro l
  induction l with
  | nil => intro _ _ _ _ h; cases h
  | cons a l ih =>
    intro off p b h hm
    obtain ⟨q, c⟩ := a
    obtain ⟨h1, h2, h3, h4⟩ := h
    have htk : ((code.drop off).take (q - off)).length = q - off := by simp only [List.length_take, List.length_drop]; omega
    rcases List.mem_cons.mp hm with heq | hm
    · simp only [Prod.mk.injEq] at heq
      obtain ⟨rfl, rfl⟩ := heq
      have hid : sh (lens ((p, b) :: l)) p = p := by
        simp only [lens, List.map_cons, sh]
        rw [if_neg (by omega)]
        have := sh_id (lens l) p (fun a ha => by have := h4.ge a ha; omega)
        simp only [lens] at this
        omega
      refine ⟨ex (p + 1) l ((code.drop off).drop (p + 1 - off)), ?_⟩
      rw [hid]
      simp only [ex]
      rw [List.drop_append, List.drop_eq_nil_of_le (by omega), htk]
      simp
    · have hpq : q + 1 ≤ p := h4.ge (p, b.length) (by simp only [lens, List.mem_map]; exact ⟨(p, b), hm, rfl⟩)
      obtain ⟨rest, hr⟩ := ih (q + 1) p b h4 hm
      refine ⟨rest, ?_⟩
      rw [← hr]
      have hle := sh_le (lens l) p
      have hs : sh (lens ((q, c) :: l)) p = sh (lens l) p + (c.length - 1) := by
        simp only [lens, List.map_cons, sh]; rw [if_pos (by omega)]
      simp only [ex]
      rw [hs, List.drop_append, List.drop_eq_nil_of_le (by omega), htk, List.drop_append, List.drop_eq_nil_of_le (by omega), List.drop_drop]
      rw [show off + (q + 1 - off) = q + 1 by omega, List.nil_append, List.nil_append]
      congr 1; omega

theorem Chain.editOk {code : List Nat} : ∀ {es : List Entry} {added P : Nat}, Chain code added P es → EditOk code.length P (edits code es) := by
  intro es
  induction es with
  | nil => intro _ _ _; trivial
  | cons e es ih =>
    intro added P h
    obtain ⟨op, h1, h2, h3, h4, h5, h6, h7, h8⟩ := h
    have him := immPos_le op h2
    have hop : opOf code e = e.orig + immPos op := by simp [opOf, h1]
    simp only [edits, List.map_cons, EditOk, hop]
    exact ⟨by omega, by omega, by omega, ih h8⟩

/-! ## Final state of the relaxation can be written -/

def addedOf (es : List Entry) : Nat := (es.map fun e => e.imm - 1).sum

theorem sh_append (l1 l2 : List (Nat × Nat)) (x : Nat) : sh (l1 ++ l2) x + x = sh l1 x + sh l2 x := by
  induction l1 with
  | nil => simp only [List.nil_append, sh]; omega
  | cons a l ih => obtain ⟨o, s⟩ := a; simp only [List.cons_append, sh]; omega

theorem sh_all (es : List Entry) (x : Nat) (h : ∀ e ∈ es, e.orig < x) : sh (sizes es) x = x + addedOf es := by
  induction es with
  | nil => simp [sizes, sh, addedOf]
  | cons e es ih =>
    have h1 := ih (fun a ha => h a (List.mem_cons_of_mem _ ha))
    have h2 := h e List.mem_cons_self
    simp only [sizes, List.map_cons, sh, addedOf, List.sum_cons, if_pos h2] at h1 ⊢
    omega

structure Final (code : List Nat) (J : List (Nat × Nat)) (es : List Entry) : Prop where
  inv : Inv code J J.length es
  exact' : ∀ j, ExactAt code J (sizes es) j

theorem Final.packed_length {code : List Nat} {J : List (Nat × Nat)} {es : List Entry} (L : Layout code J) (F : Final code J es) {j : Nat}
    {e : Entry} {o t : Nat} (he : es[j]? = some e) (hj : J[j]? = some (o, t)) :
    (packed e).length = e.imm ∧ -134217728 ≤ (e.target : Int) - (e.instr + e.base + e.imm : Nat) ∧
      (e.target : Int) - (e.instr + e.base + e.imm : Nat) < 134217728 := by
  obtain ⟨h1, h2, h3, h4, h5, h6⟩ := F.inv.ent j e o t he hj
  obtain ⟨op, ho, _, hl⟩ := L.op (o, t) (List.mem_of_getElem? hj)
  simp only at ho hl
  have hjl : j < J.length := (List.getElem?_eq_some_iff.mp hj).1
  have hb := (h6 op ho).1 hjl
  have hx := F.exact' j o t op e.imm hj ho (by rw [sizes_getElem he, h1])
  have hbt := F.inv.bound L (L.target (o, t) (List.mem_of_getElem? hj)).1
  have hbo := F.inv.bound L (show o ≤ code.length by omega)
  have hbs : baseSize op ≤ 3 := by unfold baseSize; repeat' split
                                   all_goals omega
  simp only at hbt
  have hr : -134217728 ≤ (e.target : Int) - (e.instr + e.base + e.imm : Nat) ∧ (e.target : Int) - (e.instr + e.base + e.imm : Nat) < 134217728 := by
    omega
  refine ⟨?_, hr⟩
  unfold packed
  rw [← C04_simm_size, simmSize_eq _ hr, h2, h3, hb]
  exact hx

theorem Final.chain {code : List Nat} {J : List (Nat × Nat)} {es : List Entry} (L : Layout code J) (F : Final code J es) :
    ∀ (es2 es1 : List Entry) (P : Nat), es = es1 ++ es2 → (∀ e ∈ es2, P ≤ e.orig) → Chain code (addedOf es1) P es2 := by
  intro es2
  induction es2 with
  | nil => intro _ _ _ _; trivial
  | cons e es2 ih =>
    intro es1 P hsplit hP
    have he : es[es1.length]? = some e := by rw [hsplit]; simp
    have hlen : es1.length < J.length := by rw [← F.inv.len, hsplit]; simp
    obtain ⟨⟨o, t⟩, hj⟩ : ∃ a, J[es1.length]? = some a := ⟨_, List.getElem?_eq_getElem hlen⟩
    obtain ⟨h1, h2, h3, h4, h5, h6⟩ := F.inv.ent _ e o t he hj
    obtain ⟨op, ho, hij, hl⟩ := L.op (o, t) (List.mem_of_getElem? hj)
    simp only at ho hl
    have him := immPos_le op hij
    -- entries around this one
    have hbefore : ∀ f ∈ es1, f.orig < o := by
      intro f hf
      obtain ⟨k, hk⟩ := List.mem_iff_getElem?.mp hf
      have hkl := (List.getElem?_eq_some_iff.mp hk).1
      have hk' : es[k]? = some f := by rw [hsplit, List.getElem?_append_left hkl]; exact hk
      obtain ⟨⟨o', t'⟩, hj'⟩ : ∃ a, J[k]? = some a := ⟨_, List.getElem?_eq_getElem (by omega)⟩
      have := L.lt hj' hj hkl
      rw [(F.inv.ent k f o' t' hk' hj').1]
      exact this
    have hafter : ∀ f ∈ es2, o + baseSize op + 1 ≤ f.orig := by
      intro f hf
      obtain ⟨k, hk⟩ := List.mem_iff_getElem?.mp hf
      have hk' : es[es1.length + (k + 1)]? = some f := by
        rw [hsplit, List.getElem?_append_right (by omega), show es1.length + (k + 1) - es1.length = k + 1 by omega, List.getElem?_cons_succ]
        exact hk
      have hkl : es1.length + (k + 1) < J.length := by rw [← F.inv.len]; exact (List.getElem?_eq_some_iff.mp hk').1
      have hj' := List.getElem?_eq_getElem hkl
      rw [(F.inv.ent _ f _ _ hk' hj').1]
      have := List.pairwise_iff_getElem.mp L.order es1.length (es1.length + (k + 1)) hlen hkl (by omega)
      have heq : J[es1.length] = (o, t) := by
        have := List.getElem?_eq_getElem hlen; rw [hj] at this; exact (Option.some.inj this).symm
      rw [heq] at this
      exact this op ho
    refine ⟨op, by rw [h1]; exact ho, hij, by rw [h1]; exact hl, (F.packed_length L he hj).1, h4, hP e List.mem_cons_self, ?_, ?_⟩
    · rw [h2, hsplit, h1]
      have h7 := sh_append (sizes es1) (sizes (e :: es2)) o
      have h8 := sh_all es1 o hbefore
      have h9 : sh (sizes (e :: es2)) o = o := by
        apply sh_id
        intro a ha
        simp only [sizes, List.mem_map] at ha
        obtain ⟨f, hf, rfl⟩ := ha
        rcases List.mem_cons.mp hf with rfl | hf
        · simp only; omega
        · have := hafter f hf; simp only; omega
      have h10 : sizes (es1 ++ e :: es2) = sizes es1 ++ sizes (e :: es2) := by simp [sizes]
      rw [h10]; omega
    · have := ih (es1 ++ [e]) (e.orig + immPos op + 1) (by rw [hsplit]; simp) (fun f hf => by have := hafter f hf; omega)
      have hadd : addedOf (es1 ++ [e]) = addedOf es1 + (e.imm - 1) := by simp [addedOf]
      rw [hadd] at this
      exact this

end Verif.Compiler
