import Verif.Re.MatchFacts

/-!
# Running repetitions, groups and alternatives

Continues `Verif/Re/MatchFacts.lean`.
-/

namespace Verif.Re

open Spec

/-! ### Slots -/

theorem getD_set_eq {l : List Nat} {i v : Nat} (h : i < l.length) : (l.set i v).getD i 0 = v := by
  simp [h]

theorem getD_set_ne {l : List Nat} {i j v : Nat} (h : i ≠ j) : (l.set i v).getD j 0 = l.getD j 0 := by
  simp [h]

def upd (f : Nat → Option Nat) (i : Nat) (v : Nat) : Nat → Option Nat := fun j => if j = i then some v else f j

theorem upd_upd (f : Nat → Option Nat) (i v w : Nat) : upd (upd f i v) i w = upd f i w := by
  funext j
  unfold upd
  split <;> rfl

theorem At.shift {E : Env} {a b : Nat} {w : List Nat} (h : At E a w) (he : a = b) : At E b w := he ▸ h

theorem foundGroup_eq {p : Prog} {s s' : List Nat} {i : Nat}
    (h0 : s'.getD (p.counts + i * 2) 0 = s.getD (p.counts + i * 2) 0)
    (h1 : s'.getD (p.counts + i * 2 + 1) 0 = s.getD (p.counts + i * 2 + 1) 0) :
    foundGroup p s' i = foundGroup p s i := by
  unfold foundGroup
  rw [h0, h1]

theorem Rel.setCount {E : Env} {opens held : Nat → Option Nat} {st : State} {pos : Nat} {slots : List Nat}
    (h : Rel E opens held st pos slots) {id n : Nat} (hid : id < E.prog.counts) :
    Rel E opens (upd held id n) st pos (slots.set id n) := by
  refine ⟨h.pos_eq, h.pos_le, by simp [h.len], fun i hi ho => ?_, fun i hi p ho => ?_, fun i hi m hm => ?_⟩
  · rw [foundGroup_eq (s := slots) (getD_set_ne (by omega)) (getD_set_ne (by omega))]
    exact h.grp i hi ho
  · rw [getD_set_ne (by omega)]
    exact h.opn i hi p ho
  · unfold upd at hm
    by_cases he : i = id
    · subst he
      rw [if_pos rfl] at hm
      rw [getD_set_eq (by rw [h.len]; omega)]
      exact Option.some.inj hm
    · rw [if_neg he] at hm
      rw [getD_set_ne (fun h => he h.symm)]
      exact h.hld i hi m hm

theorem Rel.release {E : Env} {opens held : Nat → Option Nat} {st : State} {pos : Nat} {slots : List Nat} {id n : Nat}
    (h : Rel E opens (upd held id n) st pos slots) (hid : held id = none) : Rel E opens held st pos slots := by
  refine ⟨h.pos_eq, h.pos_le, h.len, h.grp, h.opn, fun i hi m hm => h.hld i hi m ?_⟩
  unfold upd
  by_cases he : i = id
  · subst he; rw [hid] at hm; cases hm
  · rw [if_neg he]; exact hm

theorem Rel.held {E : Env} {opens held : Nat → Option Nat} {st : State} {pos : Nat} {slots : List Nat} {id n : Nat}
    (h : Rel E opens (upd held id n) st pos slots) (hid : id < E.prog.counts) : slots.getD id 0 = n :=
  h.hld id hid n (by simp [upd])

theorem setSlot_ok {slots : List Nat} {i v : Nat} (h : i < slots.length) : setSlot slots i v = some (slots.set i v) := by
  unfold setSlot; rw [if_pos h]

theorem target_fwd {ip d : Nat} (h : d < 32768) : target ip d = some (ip + d) := by
  unfold target
  simp only [if_pos h]
  rw [if_neg (by omega)]
  congr 1

theorem target_back {ip n : Nat} (h : n ≤ ip) (hn : n ≤ 32767) : target ip (word16 (-(n : Int))) = some (ip - n) := by
  unfold word16
  by_cases h0 : n = 0
  · subst h0
    simp [target]
  · have : ((-(n : Int)) % 65536).toNat = 65536 - n := by omega
    rw [this]
    unfold target
    simp only
    rw [if_neg (by omega), if_neg (by omega)]
    congr 1
    omega

/-- A saved possibility is restored as it was. -/
theorem evBack_save {E : Env} {p ip ip0 : Nat} {opens held : Nat → Option Nat} {f : State → List State} {st : State}
    {pos : Nat} {slots : List Nat} {stack : List Item} {l : List State} (hhi : E.hi ≤ 65535) (hip : ip < 65536)
    (hc : Cont E p ip opens held f) (rel : Rel E opens held st pos slots) (hb : EvBack E p stack (pick E p l)) :
    EvBack E p (E.save ⟨ip0, pos, slots, stack⟩ ip :: stack) (pick E p (f st ++ l)) := by
  unfold EvBack Env.save
  have h1 : ip % 65536 = ip := Nat.mod_eq_of_lt hip
  have h2 : E.hi - (E.hi - pos) % 65536 = pos := by
    have := rel.pos_le
    have := rel.pos_eq
    omega
  simp only [h1, h2]
  exact hc _ _ _ _ _ rel hb

/-! ### Repetitions -/

/-- The states after `n` turns. -/
def remaining (lazy : Bool) (F : State → List State) (min max n : Nat) : State → List State :=
  if n < min then turns lazy F (max - min) (min - n) else upTo lazy F (max - n)

theorem remaining_less {lazy : Bool} {F : State → List State} {min max n : Nat} (h : n < min) (st : State) :
    remaining lazy F min max n st = (F st).flatMap (remaining lazy F min max (n + 1)) := by
  unfold remaining
  rw [if_pos h]
  obtain ⟨m, hm⟩ : ∃ m, min - n = m + 1 := ⟨min - n - 1, by omega⟩
  rw [hm]
  show (F st).flatMap (turns lazy F (max - min) m) = _
  by_cases h' : n + 1 < min
  · rw [if_pos h', show min - (n + 1) = m by omega]
  · rw [if_neg h', show m = 0 by omega, show max - (n + 1) = max - min by omega]
    rfl

theorem remaining_more {lazy : Bool} {F : State → List State} {min max n : Nat} (h : ¬ n < min) (h' : n < max)
    (st : State) : remaining lazy F min max n st =
      if lazy then st :: (F st).flatMap (remaining lazy F min max (n + 1))
      else (F st).flatMap (remaining lazy F min max (n + 1)) ++ [st] := by
  unfold remaining
  rw [if_neg h, if_neg (show ¬ n + 1 < min by omega)]
  obtain ⟨m, hm⟩ : ∃ m, max - n = m + 1 := ⟨max - n - 1, by omega⟩
  rw [hm, show max - (n + 1) = m by omega]
  rfl

theorem remaining_last {lazy : Bool} {F : State → List State} {min max n : Nat} (h : ¬ n < min) (h' : ¬ n < max)
    (st : State) : remaining lazy F min max n st = [st] := by
  unfold remaining
  rw [if_neg h, show max - n = 0 by omega]
  rfl

section
variable {E : Env} {p ip : Nat} {opens held : Nat → Option Nat} {F : State → List State} {lazy : Bool}
  {id min max : Nat} {b : List Nat}

/-- At the end of a turn, `n` turns have been made. -/
theorem loop_cont (hhi : E.hi ≤ 65535) (hlen : E.prog.code.length ≤ 32767) (hat : At E ip (repCode lazy id min max b))
    (hid : id < E.prog.counts) (hfree : held id = none) (hmm : min ≤ max) (hmax : max ≤ 65535)
    (hbody : ∀ c, Block E p (ip + 4) b.length opens (upd held id c) F) {f : State → List State}
    (hf : Cont E p (ip + (b.length + 9)) opens held f) : ∀ k n, k = max - n → 1 ≤ n → n ≤ max →
    Cont E p (ip + 4 + b.length) opens (upd held id (n - 1)) fun st => (remaining lazy F min max n st).flatMap f := by
  have hle := hat.le (by simp [repCode])
  have hrl : (repCode lazy id min max b).length = b.length + 9 := by simp [repCode]
  rw [hrl] at hle
  have hj : At E (ip + 4 + b.length) [if lazy then 15 else 14, word16 (-(b.length : Int)), id, min, max] := by
    exact At.shift (At.right (a := [if lazy then 13 else 12, b.length + 9, id, min] ++ b) hat) (by simp; omega)
  intro k
  induction k with
  | zero =>
    intro n hk h1 hn st pos slots stack l rel hback
    have hnm : n = max := by omega
    have hs := step_at (c := ⟨ip + 4 + b.length, pos, slots, stack⟩) (i := .loop lazy (word16 (-(b.length : Int))) id min max)
      hj (by simp) (fun _ => by cases lazy <;> rfl)
    have hlt : id < slots.length := by rw [rel.len]; omega
    have hc : (slots.getD id 0 + 1) % 65536 = n := by rw [rel.held hid]; omega
    have ht : target (ip + 4 + b.length) (word16 (-(b.length : Int))) = some (ip + 4) := by
      rw [target_back (by omega) (by omega)]; congr 1; omega
    simp only [Env.exec, Env.endCount, hc, setSlot_ok hlt, ht] at hs
    rw [if_neg (by omega)] at hs
    have hrel : Rel E opens held st pos (slots.set id n) := by
      have := rel.setCount (n := n) hid
      rw [upd_upd] at this
      exact this.release hfree
    simp only [remaining_last (show ¬ n < min by omega) (show ¬ n < max by omega), List.flatMap_cons, List.flatMap_nil,
      List.append_nil]
    have hnext : E.step ⟨ip + 4 + b.length, pos, slots, stack⟩ = .next ⟨ip + (b.length + 9), pos, slots.set id n, stack⟩ := by
      rw [hs]
      have h9 : ip + 4 + b.length + 5 = ip + (b.length + 9) := by omega
      cases lazy
      · simp only [Bool.false_eq_true, if_false, if_neg (show ¬ n < max by omega), h9]
      · simp only [if_true, if_neg (show ¬ n < max by omega), h9]
    exact Ev.next hnext (hf _ _ _ _ _ hrel hback)
  | succ k ih =>
    intro n hk h1 hn st pos slots stack l rel hback
    have hs := step_at (c := ⟨ip + 4 + b.length, pos, slots, stack⟩) (i := .loop lazy (word16 (-(b.length : Int))) id min max)
      hj (by simp) (fun _ => by cases lazy <;> rfl)
    have hlt : id < slots.length := by rw [rel.len]; omega
    have hc : (slots.getD id 0 + 1) % 65536 = n := by rw [rel.held hid]; omega
    have ht : target (ip + 4 + b.length) (word16 (-(b.length : Int))) = some (ip + 4) := by
      rw [target_back (by omega) (by omega)]; congr 1; omega
    simp only [Env.exec, Env.endCount, hc, setSlot_ok hlt, ht] at hs
    have hrel : Rel E opens (upd held id n) st pos (slots.set id n) := by
      have := rel.setCount (n := n) hid
      rwa [upd_upd] at this
    have hrel' := hrel.release hfree
    have hnext := ih (n + 1) (by omega) (by omega) (by omega)
    rw [Nat.add_sub_cancel] at hnext
    have hcb := hbody n _ hnext
    have h9 : ip + 4 + b.length + 5 = ip + (b.length + 9) := by omega
    rw [h9] at hs
    by_cases hmin : n < min
    · rw [if_pos hmin] at hs
      simp only [remaining_less hmin, List.flatMap_assoc]
      exact Ev.next hs (hcb _ _ _ _ _ hrel hback)
    · rw [if_neg hmin] at hs
      simp only [remaining_more hmin (show n < max by omega)]
      cases lazy with
      | false =>
        simp only [Bool.false_eq_true, if_false] at hs ⊢
        rw [if_pos (by omega)] at hs
        simp only [List.flatMap_append, List.flatMap_cons, List.flatMap_nil, List.append_nil, List.append_assoc,
          List.flatMap_assoc]
        exact Ev.next hs (hcb _ _ _ _ _ hrel (evBack_save hhi (by omega) hf hrel' hback))
      | true =>
        simp only [if_true] at hs ⊢
        rw [if_pos (by omega)] at hs
        simp only [List.flatMap_cons, List.append_assoc, List.flatMap_assoc]
        exact Ev.next hs (hf _ _ _ _ _ hrel' (evBack_save hhi (by omega) hcb hrel hback))

theorem block_rep (hhi : E.hi ≤ 65535) (hlen : E.prog.code.length ≤ 32767) (hat : At E ip (repCode lazy id min max b))
    (hid : id < E.prog.counts) (hfree : held id = none) (hmm : min ≤ max) (h1 : 1 ≤ max) (hmax : max ≤ 65535)
    (hbody : ∀ c, Block E p (ip + 4) b.length opens (upd held id c) F) :
    Block E p ip (repCode lazy id min max b).length opens held (turns lazy F (max - min) min) := by
  have hle := hat.le (by simp [repCode])
  have hrl : (repCode lazy id min max b).length = b.length + 9 := by simp [repCode]
  rw [hrl] at hle ⊢
  intro f hf st pos slots stack l rel hback
  have hh : At E ip [if lazy then 13 else 12, b.length + 9, id, min] := by
    have := At.left (a := [if lazy then 13 else 12, b.length + 9, id, min]) (b := b ++ _) (by
      rw [← List.append_assoc]; exact hat)
    exact this
  have hs := step_at (c := ⟨ip, pos, slots, stack⟩) (i := .count lazy (b.length + 9) id min)
    hh (by simp) (fun _ => by cases lazy <;> rfl)
  have hlt : id < slots.length := by rw [rel.len]; omega
  simp only [Env.exec, Env.startCount, setSlot_ok hlt, target_fwd (show b.length + 9 < 32768 by omega)] at hs
  have hrel : Rel E opens (upd held id 0) st pos (slots.set id 0) := rel.setCount hid
  have hrel' := hrel.release hfree
  have hnext := loop_cont hhi hlen hat hid hfree hmm hmax hbody hf (max - 1) 1 rfl (Nat.le_refl _) h1
  rw [Nat.sub_self] at hnext
  have hcb := hbody 0 _ hnext
  have hrem : ∀ st, turns lazy F (max - min) min st = remaining lazy F min max 0 st := by
    intro st
    unfold remaining
    by_cases h0 : 0 < min
    · rw [if_pos h0, Nat.sub_zero]
    · have : min = 0 := by omega
      subst this
      rfl
  simp only [hrem]
  by_cases hmin : 0 < min
  · simp only [remaining_less hmin, List.flatMap_assoc]
    have hs' : E.step ⟨ip, pos, slots, stack⟩ = .next ⟨ip + 4, pos, slots.set id 0, stack⟩ := by
      rw [hs]
      cases lazy <;> simp only [if_neg (show ¬ min = 0 by omega), if_true, Bool.false_eq_true, if_false]
    exact Ev.next hs' (hcb _ _ _ _ _ hrel hback)
  · have h0 : min = 0 := by omega
    simp only [if_pos h0] at hs
    simp only [remaining_more hmin (show 0 < max by omega)]
    cases lazy with
    | false =>
      simp only [Bool.false_eq_true, if_false] at hs ⊢
      simp only [List.flatMap_append, List.flatMap_cons, List.flatMap_nil, List.append_nil, List.append_assoc,
        List.flatMap_assoc]
      exact Ev.next hs (hcb _ _ _ _ _ hrel (evBack_save hhi (by omega) hf hrel' hback))
    | true =>
      simp only [if_true] at hs ⊢
      simp only [List.flatMap_cons, List.append_assoc, List.flatMap_assoc]
      exact Ev.next hs (hf _ _ _ _ _ hrel' (evBack_save hhi (by omega) hcb hrel hback))

end

theorem block_quant {E : Env} {p ip k : Nat} {opens held : Nat → Option Nat} {F : State → List State} {q : Option Quant}
    {b : List Nat} (hhi : E.hi ≤ 65535) (hlen : E.prog.code.length ≤ 32767) (hat : At E ip (quantCode q k b))
    (hk : k + quantCounts q ≤ E.prog.counts) (hfree : ∀ i, k ≤ i → i < k + quantCounts q → held i = none)
    (hq : QuantOk q)
    (hbody : ∀ ip', At E ip' b → ∀ held', (∀ i, i < k → held' i = held i) → Block E p ip' b.length opens held' F) :
    Block E p ip (quantCode q k b).length opens held (repeated F q) := by
  cases q with
  | none => exact hbody ip hat held fun _ _ => rfl
  | some q =>
    obtain ⟨h1, h2, h3⟩ := hq q rfl
    simp only [quantCounts, Option.isSome_some, if_true] at hk hfree
    refine block_rep hhi hlen hat (by omega) (hfree k (Nat.le_refl _) (by omega)) h1 h2 h3 fun c => ?_
    refine hbody (ip + 4) ?_ _ fun i hi => ?_
    · have := At.right (At.left (a := [if q.lazy then 13 else 12, b.length + 9, k, q.times.min] ++ b) hat)
      simpa using this
    · unfold upd; rw [if_neg (by omega)]

/-! ### Groups -/

theorem rel_open {E : Env} {opens held : Nat → Option Nat} {st : State} {pos : Nat} {slots : List Nat}
    (h : Rel E opens held st pos slots) {g : Nat} (hg : g < E.prog.groups) :
    Rel E (upd opens g pos) held st pos (slots.set (E.prog.counts + g * 2) pos) := by
  refine ⟨h.pos_eq, h.pos_le, by simp [h.len], fun i hi ho => ?_, fun i hi p ho => ?_, fun i hi m hm => ?_⟩
  · have hne : i ≠ g := by
      rintro rfl
      simp [upd] at ho
    rw [foundGroup_eq (s := slots) (getD_set_ne (by omega)) (getD_set_ne (by omega))]
    refine h.grp i hi ?_
    simpa [upd, hne] using ho
  · by_cases he : i = g
    · subst he
      rw [getD_set_eq (by rw [h.len]; omega)]
      simpa [upd] using ho
    · rw [getD_set_ne (by omega)]
      refine h.opn i hi p ?_
      simpa [upd, he] using ho
  · rw [getD_set_ne (by omega)]
    exact h.hld i hi m hm

theorem rel_close {E : Env} {opens held : Nat → Option Nat} {st : State} {pos b : Nat} {slots : List Nat} {g : Nat}
    (h : Rel E (upd opens g b) held st pos slots) (hg : g < E.prog.groups) (hopen : opens g = none) :
    Rel E opens held (st.capture g b) pos (slots.set (E.prog.counts + g * 2 + 1) pos) := by
  refine ⟨h.pos_eq, h.pos_le, by simp [h.len], fun i hi ho => ?_, fun i hi p ho => ?_, fun i hi m hm => ?_⟩
  · by_cases he : i = g
    · subst he
      unfold foundGroup
      rw [getD_set_ne (by omega), getD_set_eq (by rw [h.len]; omega), h.opn i hi b (by simp [upd])]
      simp only [State.capture, if_true, seen, h.pos_eq]
    · rw [foundGroup_eq (s := slots) (getD_set_ne (by omega)) (getD_set_ne (by omega))]
      rw [h.grp i hi (by simpa [upd, he] using ho)]
      simp only [State.capture, if_neg he]
  · have he : i ≠ g := by
      rintro rfl
      rw [hopen] at ho; cases ho
    rw [getD_set_ne (by omega)]
    exact h.opn i hi p (by simpa [upd, he] using ho)
  · rw [getD_set_ne (by omega)]
    exact h.hld i hi m hm

theorem block_capture {E : Env} {p ip g : Nat} {opens held : Nat → Option Nat} {F : State → List State} {b : List Nat}
    (hhi : E.hi ≤ 65535) (hat : At E ip (groupCode g b)) (hg : g < E.prog.groups) (hg' : g < 0x7FFF)
    (hopen : opens g = none)
    (hbody : ∀ opens', (∀ i, i ≠ g → opens' i = opens i) → Block E p (ip + 2) b.length opens' held F) :
    Block E p ip (groupCode g b).length opens held fun st => (F st).map fun st' => st'.capture g st.pos := by
  intro f hf st pos slots stack l rel hback
  have hgl : (groupCode g b).length = 2 + b.length + 2 := by simp [groupCode]; omega
  have h1 : At E ip [8, g] := (At.left (a := [8, g]) (b := b ++ [9, g]) (by rw [← List.append_assoc]; exact hat))
  have h2 : At E (ip + 2 + b.length) [9, g] := by
    exact At.shift (At.right (a := [8, g] ++ b) hat) (by simp; omega)
  have hs := step_at (c := ⟨ip, pos, slots, stack⟩) (i := .beginGroup g) h1 (by simp) (fun _ => rfl)
  have hlt : E.prog.counts + g * 2 < slots.length := by rw [rel.len]; omega
  have hpe := rel.pos_eq
  have hpl := rel.pos_le
  have hpm : pos % 65536 = pos := by omega
  simp only [Env.exec, Env.mark, if_pos hg', Nat.add_zero, setSlot_ok hlt, hpm] at hs
  refine Ev.next hs ?_
  simp only [List.flatMap_map]
  rw [← hpe]
  refine hbody (upd opens g pos) (fun i hi => by simp [upd, hi]) (fun st' => f (st'.capture g pos)) ?_ _ _ _ _ _
    (rel_open rel hg) hback
  intro st1 pos1 slots1 stack1 l1 rel1 hback1
  have hs1 := step_at (c := ⟨ip + 2 + b.length, pos1, slots1, stack1⟩) (i := .endGroup g) h2 (by simp) (fun _ => rfl)
  have hlt1 : E.prog.counts + g * 2 + 1 < slots1.length := by rw [rel1.len]; omega
  have hpe1 := rel1.pos_eq
  have hpl1 := rel1.pos_le
  have hpm1 : pos1 % 65536 = pos1 := by omega
  simp only [Env.exec, Env.mark, if_pos hg', setSlot_ok hlt1, hpm1] at hs1
  refine Ev.next hs1 ?_
  rw [hgl, show ip + (2 + b.length + 2) = ip + 2 + b.length + 2 by omega] at hf
  exact hf _ _ _ _ _ (rel_close rel1 hg hopen) hback1

theorem block_group {E : Env} {p ip : Nat} {opens held : Nat → Option Nat} {F : State → List State} {b : List Nat}
    (hat : At E ip (groupCode 0xFFFF b)) (hbody : Block E p (ip + 2) b.length opens held F) :
    Block E p ip (groupCode 0xFFFF b).length opens held F := by
  intro f hf st pos slots stack l rel hback
  have hgl : (groupCode 0xFFFF b).length = 2 + b.length + 2 := by simp [groupCode]; omega
  have h1 : At E ip [8, 0xFFFF] :=
    (At.left (a := [8, 0xFFFF]) (b := b ++ [9, 0xFFFF]) (by rw [← List.append_assoc]; exact hat))
  have h2 : At E (ip + 2 + b.length) [9, 0xFFFF] := by
    exact At.shift (At.right (a := [8, 0xFFFF] ++ b) hat) (by simp; omega)
  have hs := step_at (c := ⟨ip, pos, slots, stack⟩) (i := .beginGroup 0xFFFF) h1 (by simp) (fun _ => rfl)
  simp only [Env.exec, Env.mark, if_neg (show ¬ 0xFFFF < 0x7FFF by omega)] at hs
  refine Ev.next hs (hbody f ?_ _ _ _ _ _ rel hback)
  intro st1 pos1 slots1 stack1 l1 rel1 hback1
  have hs1 := step_at (c := ⟨ip + 2 + b.length, pos1, slots1, stack1⟩) (i := .endGroup 0xFFFF) h2 (by simp) (fun _ => rfl)
  simp only [Env.exec, Env.mark, if_neg (show ¬ 0xFFFF < 0x7FFF by omega)] at hs1
  refine Ev.next hs1 ?_
  rw [hgl, show ip + (2 + b.length + 2) = ip + 2 + b.length + 2 by omega] at hf
  exact hf _ _ _ _ _ rel1 hback1

/-! ### Alternatives -/

theorem jump_cont {E : Env} {p ip d : Nat} {opens held : Nat → Option Nat} {f : State → List State}
    (hat : At E ip [11, d]) (hd : d < 32768) (hf : Cont E p (ip + d) opens held f) : Cont E p ip opens held f := by
  intro st pos slots stack l rel hback
  have hs := step_at (c := ⟨ip, pos, slots, stack⟩) (i := .jump d) hat (by simp) (fun _ => rfl)
  simp only [Env.exec, target_fwd hd] at hs
  exact Ev.next hs (hf _ _ _ _ _ rel hback)

/-- A jump over an expression comes to its end. -/
theorem Code.lands {E : Env} {p : Nat} {T : Nat → Option (List Range)} {r g k k' W e} (h : Code T r g k k' W e)
    (hlen : E.prog.code.length ≤ 32767) {opens held : Nat → Option Nat} {f : State → List State} : ∀ {ip : Nat},
    At E ip W → Cont E p (ip + W.length) opens held f → Cont E p (ip + e) opens held f := by
  induction h with
  | empty g k => intro ip _ hf; exact hf
  | atom ha hs ih => intro ip _ hf; rwa [List.length_append] at hf
  | capture hb hs ihb ihs => intro ip _ hf; rwa [List.length_append] at hf
  | group hb hs ihb ihs => intro ip _ hf; rwa [List.length_append] at hf
  | @alt l r g k k1 k' wl el wr er hl hr ihl ihr =>
    intro ip hat hf
    have hle := hat.le (by simp)
    have hr' : At E (ip + (2 + wl.length + 2)) wr := by
      exact At.shift (At.right (a := [10, wl.length + 4] ++ wl ++ [11, 2 + er]) hat) (by simp; omega)
    have hj : At E (ip + (2 + wl.length)) [11, 2 + er] := by
      exact At.shift (At.right (a := [10, wl.length + 4] ++ wl) (At.left (a := [10, wl.length + 4] ++ wl ++ [11, 2 + er]) hat)) (by simp; omega)
    have hel : er ≤ wr.length := by
      cases hr <;> simp <;> omega
    simp only [List.length_append, List.length_cons, List.length_nil] at hle hf
    refine jump_cont hj (by omega) ?_
    have := ihr hr' (by
      have : ip + (2 + wl.length + 2) + wr.length = ip + (0 + 1 + 1 + wl.length + (0 + 1 + 1) + wr.length) := by omega
      rw [this]; exact hf)
    have he : ip + (2 + wl.length) + (2 + er) = ip + (2 + wl.length + 2) + er := by omega
    rw [he]
    exact this

theorem block_alt {E : Env} {p ip n er : Nat} {opens held : Nat → Option Nat} {F G : State → List State} {wl : List Nat}
    (hhi : E.hi ≤ 65535) (hlen : E.prog.code.length ≤ 32767) (hel : er ≤ n)
    (hat : At E ip ([10, wl.length + 4] ++ wl ++ [11, 2 + er])) (hn : ip + (wl.length + 4) + n ≤ E.prog.code.length)
    (hl : Block E p (ip + 2) wl.length opens held F) (hr : Block E p (ip + (wl.length + 4)) n opens held G)
    (hland : ∀ f, Cont E p (ip + (wl.length + 4) + n) opens held f → Cont E p (ip + (wl.length + 4) + er) opens held f) :
    Block E p ip (wl.length + 4 + n) opens held fun st => F st ++ G st := by
  intro f hf st pos slots stack l rel hback
  rw [← Nat.add_assoc] at hf
  have h1 : At E ip [10, wl.length + 4] := At.left (b := wl ++ [11, 2 + er]) (by rw [← List.append_assoc]; exact hat)
  have hj : At E (ip + 2 + wl.length) [11, 2 + er] := by
    exact At.shift (At.right (a := [10, wl.length + 4] ++ wl) hat) (by simp; omega)
  have hs := step_at (c := ⟨ip, pos, slots, stack⟩) (i := .fork (wl.length + 4)) h1 (by simp) (fun _ => rfl)
  simp only [Env.exec, target_fwd (show wl.length + 4 < 32768 by omega)] at hs
  refine Ev.next hs ?_
  simp only [List.flatMap_append, List.append_assoc]
  refine hl f (jump_cont hj (by omega) ?_) _ _ _ _ _ rel (evBack_save hhi (by omega) (hr f hf) rel hback)
  have he : ip + 2 + wl.length + (2 + er) = ip + (wl.length + 4) + er := by omega
  rw [he]
  exact hland f hf

/-! ### All expressions -/

theorem Code.block {E : Env} {p : Nat} (hhi : E.hi ≤ 65535) (hlen : E.prog.code.length ≤ 32767)
    (hgr : E.prog.groups ≤ 0x7FFF) {r g k k' W e} (h : Code E.prog.cls r g k k' W e) :
    ∀ {ip : Nat} {opens held : Nat → Option Nat}, QuantsOk r → At E ip W → g + r.groups ≤ E.prog.groups →
      k' ≤ E.prog.counts → (∀ i, g ≤ i → i < g + r.groups → opens i = none) → (∀ i, k ≤ i → i < k' → held i = none) →
      Block E p ip W.length opens held (outcomes E.subject r g) := by
  induction h with
  | empty g k =>
    intro ip opens held _ _ _ _ _ _ f hf st pos slots stack l rel hback
    simp only [outcomes, List.flatMap_cons, List.flatMap_nil, List.append_nil]
    exact hf _ _ _ _ _ rel hback
  | @atom a q s g k k' w ws e ha hs ih =>
    intro ip opens held hq hat hg hk ho hh
    have hkle := hs.counts_le
    rw [List.length_append]
    refine Block.seq (F := repeated (atomStates E.subject a) q) ?_
      (ih hq.2 hat.right hg hk ho (fun i h1 h2 => hh i (by omega) h2))
    exact block_quant hhi hlen hat.left (by omega) (fun i h1 h2 => hh i h1 (by omega)) hq.1
      fun ip' hat' held' _ => block_atom ha hat'
  | @capture b q s g k k1 k' wb eb ws e hb hs ihb ihs =>
    intro ip opens held hq hat hg hk ho hh
    have hkb := hb.counts_le
    have hks := hs.counts_le
    simp only [Regex.groups, if_true] at hg ho
    rw [List.length_append]
    refine Block.seq (F := repeated (fun st => (outcomes E.subject b (g + 1) st).map fun st' => st'.capture g st.pos) q) ?_
      (ihs hq.2.2 hat.right (by omega) hk (fun i h1 h2 => ho i (by omega) (by omega)) (fun i h1 h2 => hh i (by omega) h2))
    refine block_quant hhi hlen hat.left (by omega) (fun i h1 h2 => hh i (by omega) (by omega)) hq.2.1
      fun ip' hat' held' hheld => ?_
    refine block_capture hhi hat' (by omega) (by omega) (ho g (Nat.le_refl _) (by omega)) fun opens' hop => ?_
    have hatb : At E (ip' + 2) wb := by
      have := At.right (At.left (a := [8, g] ++ wb) hat')
      simpa using this
    exact ihb hq.1 hatb (by omega) (by omega) (fun i h1 h2 => by rw [hop i (by omega)]; exact ho i (by omega) (by omega))
      (fun i h1 h2 => by rw [hheld i h2]; exact hh i h1 (by omega))
  | @group b q s g k k1 k' wb eb ws e hb hs ihb ihs =>
    intro ip opens held hq hat hg hk ho hh
    have hkb := hb.counts_le
    have hks := hs.counts_le
    simp only [Regex.groups, Bool.false_eq_true, if_false] at hg ho
    rw [List.length_append]
    refine Block.seq (F := repeated (outcomes E.subject b g) q) ?_
      (ihs hq.2.2 hat.right (by omega) hk (fun i h1 h2 => ho i (by omega) (by omega)) (fun i h1 h2 => hh i (by omega) h2))
    refine block_quant hhi hlen hat.left (by omega) (fun i h1 h2 => hh i (by omega) (by omega)) hq.2.1
      fun ip' hat' held' hheld => ?_
    have hatb : At E (ip' + 2) wb := by
      have := At.right (At.left (a := [8, 0xFFFF] ++ wb) hat')
      simpa using this
    exact block_group hat' (ihb hq.1 hatb (by omega) (by omega) (fun i h1 h2 => ho i (by omega) (by omega))
      (fun i h1 h2 => by rw [hheld i h2]; exact hh i h1 (by omega)))
  | @alt l r g k k1 k' wl el wr er hl hr ihl ihr =>
    intro ip opens held hq hat hg hk ho hh
    have hkl := hl.counts_le
    have hkr := hr.counts_le
    have hle := hat.le (by simp)
    simp only [Regex.groups] at hg ho
    simp only [List.length_append, List.length_cons, List.length_nil] at hle
    have hwl : At E (ip + 2) wl := by
      have := At.right (a := [10, wl.length + 4]) (At.left (a := [10, wl.length + 4] ++ wl)
        (At.left (a := [10, wl.length + 4] ++ wl ++ [11, 2 + er]) hat))
      exact this
    have hwr : At E (ip + (wl.length + 4)) wr := by
      exact At.shift (At.right (a := [10, wl.length + 4] ++ wl ++ [11, 2 + er]) hat) (by simp)
    have hel : er ≤ wr.length := by
      cases hr <;> simp <;> omega
    have hlen' : ([10, wl.length + 4] ++ wl ++ [11, 2 + er] ++ wr).length = wl.length + 4 + wr.length := by
      simp; omega
    rw [hlen']
    exact block_alt hhi hlen hel (At.left hat) (by omega)
      (ihl hq.1 hwl (by omega) (by omega) (fun i h1 h2 => ho i (by omega) (by omega)) (fun i h1 h2 => hh i h1 (by omega)))
      (ihr hq.2 hwr (by omega) hk (fun i h1 h2 => ho i (by omega) (by omega)) (fun i h1 h2 => hh i (by omega) h2))
      (fun f hf => Code.lands hr hlen hwr hf)

end Verif.Re
