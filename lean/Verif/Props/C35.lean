import Verif.Compiler.RegsRange

/-!
C35: no register is handed out twice.
-/
namespace Verif.Props.C35
open Verif.Compiler

/-! ## Specification -/

/-- Registers held by the function being compiled: objects with their numbers. -/
abbrev Held := List (Nat × Nat)

/-- Numbers in use. -/
def inUse (l : Held) : List Nat := l.map (·.2)

/-- What each operation may do, in terms of registers held only. -/
def StepSpec (held : List Held) : RegEv → RegOut → List Held → Prop
  | .one ms, .ok, held' => ∃ l ls reg k, held = l :: ls ∧ held' = ((reg, k) :: l) :: ls ∧ k < 255 ∧ k ∉ inUse l ∧ reg ∉ l.map (·.1)
  | .one ms, .tooMany, _ => ∃ l ls, held = l :: ls ∧ ∀ k, k < 255 → k ∈ inUse l
  | .one ms, .oom, _ => ms = []
  | .range n ms, .ok, held' => ∃ l ls regs k, held = l :: ls ∧ held' = (regs.zip (List.range' k n) ++ l) :: ls ∧ regs.length = n ∧ k + n ≤ 255 ∧
      (∀ i, i < n → k + i ∉ inUse l) ∧ (regs ++ l.map (·.1)).Nodup
  | .range n ms, .tooMany, _ => ∃ l ls, held = l :: ls ∧ ∀ k, k + n ≤ 255 → ∃ i, i < n ∧ k + i ∈ inUse l
  | .range n ms, .oom, _ => ms.length < n
  | .free reg, e, held' => e = .ok ∧ ∃ l ls, held = l :: ls ∧ (held' = held ∨ held' = l.filter (fun p => p.1 ≠ reg) :: ls)
  | .setTmp _ _, e, held' => e = .ok ∧ held' = held
  | .enter, e, held' => e = .ok ∧ held' = [] :: held
  | .leave, e, held' => e = .ok ∧ ∃ l, held = l :: held'

/-- New objects for registers are not in use already (see C47). -/
def Fresh (given ms : List Nat) : Prop := ms.Nodup ∧ 0 ∉ ms ∧ ∀ m ∈ ms, m ∉ given

/-- The register is held by the current function. -/
def Holds (held : List Held) (reg : Nat) : Prop := ∃ l ls, held = l :: ls ∧ reg ∈ l.map (·.1)

/-- The compiler releases only registers which it holds, asks for ranges of at least two, and does not leave the module's frame. -/
def LegalStep (p : RegProg) (given : List Nat) : RegEv → Prop
  | .one ms => Fresh given ms
  | .range n ms => 1 < n ∧ Fresh given ms
  | .free reg => Holds p.held reg
  | .setTmp reg _ => Holds p.held reg
  | .enter => True
  | .leave => p.parents ≠ []

def objects : RegEv → List Nat
  | .one ms => ms
  | .range _ ms => ms
  | _ => []

def Legal (p : RegProg) (given : List Nat) : List RegEv → Prop
  | [] => True
  | e :: es => LegalStep p given e ∧ ∀ p', regStep p e = some (.ok, p') → Legal p' (objects e ++ given) es

/-- Held registers of each frame have different objects and numbers, and their numbers are as when they were allocated. -/
def Sound (p : RegProg) : Prop :=
  ∀ x ∈ p.held.zip (p.cur.f :: p.parents), (inUse x.1).Nodup ∧ (x.1.map (·.1)).Nodup ∧ x.2.numRegs ≤ 255 ∧
    ∀ q ∈ x.1, q.2 < x.2.numRegs ∧ p.cur.h.num q.1 = q.2

/-! ## Invariant -/

def ParentsOK (h : RegHeap) : List RFrame → List (List Nat × List Nat) → Prop
  | [], [] => True
  | f :: fs, l :: ls => FrameOK h f l.1 l.2 ∧ ParentsOK h fs ls
  | _, _ => False

def flat (ls : List (List Nat × List Nat)) : List Nat := ls.flatMap fun l => l.1 ++ l.2

def HeldOK (h : RegHeap) : List Held → List (List Nat) → Prop
  | [], [] => True
  | l :: ls, u :: us => ((l.map (·.1)).Perm u ∧ ∀ q ∈ l, h.num q.1 = q.2) ∧ HeldOK h ls us
  | _, _ => False

theorem ParentsOK.congr {h h' : RegHeap} : ∀ {fs : List RFrame} {ls : List (List Nat × List Nat)}, ParentsOK h fs ls →
    (∀ r ∈ flat ls, h'.next r = h.next r ∧ h'.prev r = h.prev r ∧ h'.num r = h.num r ∧ h'.tmp r = h.tmp r) → ParentsOK h' fs ls := by
  intro fs
  induction fs with
  | nil => intro ls H _; cases ls with
    | nil => exact H
    | cons l ls => exact H
  | cons f fs ih =>
    intro ls H hc
    cases ls with
    | nil => exact H
    | cons l ls =>
      exact ⟨H.1.congr fun r hr => hc r (by simp only [flat, List.flatMap_cons]; exact List.mem_append_left _ hr),
        ih H.2 fun r hr => hc r (by simp only [flat, List.flatMap_cons]; exact List.mem_append_right _ hr)⟩

theorem HeldOK.congr {h h' : RegHeap} : ∀ {held : List Held} {us : List (List Nat)}, HeldOK h held us → (∀ u ∈ us, ∀ r ∈ u, h'.num r = h.num r) → HeldOK h' held us := by
  intro held
  induction held with
  | nil => intro us H _; cases us with
    | nil => exact H
    | cons u us => exact H
  | cons l ls ih =>
    intro us H hc
    cases us with
    | nil => exact H
    | cons u us =>
      refine ⟨⟨H.1.1, ?_⟩, ih H.2 fun u' hu' => hc u' (List.mem_cons_of_mem _ hu')⟩
      intro q hq
      rw [hc u List.mem_cons_self q.1 (H.1.1.mem_iff.mp (List.mem_map_of_mem hq))]
      exact H.1.2 q hq

structure Inv (p : RegProg) (given : List Nat) (N F U : List Nat) (ls : List (List Nat × List Nat)) : Prop where
  cur : CurOK p.cur N F U
  parents : ParentsOK p.cur.h p.parents ls
  held : HeldOK p.cur.h p.held (U :: ls.map (·.2))
  nodup : ((N ++ (F ++ U)) ++ flat ls).Nodup
  sub : ∀ r ∈ (N ++ (F ++ U)) ++ flat ls, r ∈ given

theorem mem_flat {ls : List (List Nat × List Nat)} {u : List Nat} {r : Nat} (hu : u ∈ ls.map (·.2)) (hr : r ∈ u) : r ∈ flat ls := by
  obtain ⟨l, hl, rfl⟩ := List.mem_map.mp hu
  exact List.mem_flatMap.mpr ⟨l, hl, List.mem_append_right _ hr⟩

/-- An operation on the current frame leaves the others alone. -/
theorem Inv.step {p : RegProg} {given N F U ms : List Nat} {ls : List (List Nat × List Nat)} (I : Inv p given N F U ls) (hms : Fresh given ms)
    {w' : RegState} {N' F' U' : List Nat} (A : Adv p.cur w' N F U ms N' F' U') {held' : List Held}
    (hh : ∃ l l' rest, p.held = l :: rest ∧ held' = l' :: rest ∧ ((l'.map (·.1)).Perm U' ∧ ∀ q ∈ l', w'.h.num q.1 = q.2)) :
    Inv ⟨w', p.parents, held'⟩ (ms ++ given) N' F' U' ls := by
  obtain ⟨c, rest, k1, k2⟩ := A.keep
  obtain ⟨n1, n2, n3⟩ := List.nodup_append.mp I.nodup
  have hdisj : ∀ r ∈ flat ls, r ∉ ms ++ (N ++ (F ++ U)) := by
    intro r hr h
    rcases List.mem_append.mp h with h | h
    · exact hms.2.2 r h (I.sub r (List.mem_append_right _ hr))
    · exact n3 r h r hr rfl
  have hsame : ∀ r ∈ flat ls, w'.h.next r = p.cur.h.next r ∧ w'.h.prev r = p.cur.h.prev r ∧ w'.h.num r = p.cur.h.num r ∧ w'.h.tmp r = p.cur.h.tmp r :=
    fun r hr => A.out r (hdisj r hr)
  have hmem : ∀ r, r ∈ N' ++ (F' ++ U') → r ∈ ms ++ (N ++ (F ++ U)) := by
    intro r hr
    rcases List.mem_append.mp (k2.mem_iff.mp hr) with h | h
    · rw [k1]; simp [h]
    · exact List.mem_append_right _ h
  refine ⟨A.cur, I.parents.congr hsame, ?_, ?_, ?_⟩
  · obtain ⟨l, l', rest', h1, h2, h3⟩ := hh
    have := I.held
    rw [h1] at this
    simp only [h2]
    refine ⟨h3, this.2.congr ?_⟩
    intro u hu r hr
    exact (hsame r (mem_flat hu hr)).2.2.1
  · refine List.nodup_append.mpr ⟨A.cur.nodup, n2, ?_⟩
    intro a ha b hb hab
    subst hab
    exact hdisj a hb (hmem a ha)
  · intro r hr
    rcases List.mem_append.mp hr with h | h
    · rcases List.mem_append.mp (hmem r h) with h | h
      · exact List.mem_append_left _ h
      · exact List.mem_append_right _ (I.sub r (List.mem_append_left _ h))
    · exact List.mem_append_right _ (I.sub r (List.mem_append_right _ h))

theorem Inv.head {p : RegProg} {given N F U : List Nat} {ls : List (List Nat × List Nat)} (I : Inv p given N F U ls) :
    ∃ l rest, p.held = l :: rest ∧ ((l.map (·.1)).Perm U ∧ ∀ q ∈ l, p.cur.h.num q.1 = q.2) ∧ HeldOK p.cur.h rest (ls.map (·.2)) := by
  have := I.held
  cases h : p.held with
  | nil => rw [h] at this; exact this.elim
  | cons l rest => rw [h] at this; exact ⟨l, rest, rfl, this.1, this.2⟩

/-- Numbers in use are those of the used registers. -/
theorem inUse_perm {h : RegHeap} {l : Held} {U : List Nat} (h1 : (l.map (·.1)).Perm U) (h2 : ∀ q ∈ l, h.num q.1 = q.2) : (inUse l).Perm (U.map h.num) := by
  have : inUse l = (l.map (·.1)).map h.num := by
    unfold inUse
    rw [List.map_map]
    exact List.map_congr_left fun q hq => (h2 q hq).symm
  rw [this]
  exact h1.map _

theorem frame_sound {h : RegHeap} {f : RFrame} {F U : List Nat} (H : FrameOK h f F U) {l : Held} (h1 : (l.map (·.1)).Perm U) (h2 : ∀ q ∈ l, h.num q.1 = q.2) :
    (inUse l).Nodup ∧ (l.map (·.1)).Nodup ∧ f.numRegs ≤ 255 ∧ ∀ q ∈ l, q.2 < f.numRegs ∧ h.num q.1 = q.2 := by
  refine ⟨?_, ?_, H.le, ?_⟩
  · rw [(inUse_perm h1 h2).nodup_iff]
    exact (List.nodup_append.mp (nums_nodup H)).2.1
  · rw [h1.nodup_iff]; exact (List.nodup_append.mp H.nodup).2.1
  · intro q hq
    refine ⟨?_, h2 q hq⟩
    have : q.2 ∈ (F ++ U).map h.num := by
      rw [← h2 q hq]
      exact List.mem_map_of_mem (List.mem_append_right _ (h1.mem_iff.mp (List.mem_map_of_mem hq)))
    exact List.mem_range.mp (H.nums.mem_iff.mp this)

theorem Inv.sound {p : RegProg} {given N F U : List Nat} {ls : List (List Nat × List Nat)} (I : Inv p given N F U ls) : Sound p := by
  obtain ⟨l, rest, h1, ⟨h2, h3⟩, h4⟩ := I.head
  unfold Sound
  rw [h1, List.zip_cons_cons]
  intro x hx
  rcases List.mem_cons.mp hx with rfl | hx1
  · exact frame_sound I.cur.frame h2 h3
  · have hp := I.parents
    clear h1 h2 h3 I hx
    rename x ∈ rest.zip p.parents => hx
    generalize p.parents = fs at *
    induction rest generalizing fs ls with
    | nil => cases hx
    | cons l' rest ih =>
      cases ls with
      | nil => exact h4.elim
      | cons a ls =>
        cases fs with
        | nil => exact hp.elim
        | cons f fs =>
          rw [List.zip_cons_cons] at hx
          rcases List.mem_cons.mp hx with rfl | hx
          · exact frame_sound hp.1 h4.1.1 h4.1.2
          · exact ih h4.2 fs hx hp.2

theorem step_spec {p : RegProg} {given N F U : List Nat} {ls : List (List Nat × List Nat)} (I : Inv p given N F U ls) (ev : RegEv) (hL : LegalStep p given ev) :
    ∃ e p', regStep p ev = some (e, p') ∧ StepSpec p.held ev e p'.held ∧ ∃ N' F' U' ls', Inv p' (objects ev ++ given) N' F' U' ls' := by
  obtain ⟨l, rest, hl, ⟨h2, h3⟩, h4⟩ := I.head
  have huse := inUse_perm h2 h3
  have Hf := I.cur.frame
  have hsubc : ∀ r ∈ N ++ (F ++ U), r ∈ given := fun r hr => I.sub r (List.mem_append_left _ hr)
  have hnlt : ∀ {w' : RegState} {N' F' U' : List Nat}, CurOK w' N' F' U' → ∀ r ∈ U', w'.h.num r < 255 := by
    intro w' N' F' U' C r hr
    have : w'.h.num r ∈ (F' ++ U').map w'.h.num := List.mem_map_of_mem (List.mem_append_right _ hr)
    have := List.mem_range.mp (C.frame.nums.mem_iff.mp this)
    have := C.frame.le
    omega
  cases ev with
  | one ms =>
    obtain ⟨f1, f2, f3⟩ := hL
    have hfresh : ∀ m ∈ ms, m ∉ N ++ (F ++ U) := fun m hm h => f3 m hm (hsubc m h)
    simp only [regStep]
    rcases genReg_ok I.cur f1 f2 hfresh with ⟨g1, g2, g3⟩ | ⟨g1, g2⟩ | ⟨w', r, N', F', g1, g2, g3, g4, g5⟩
    · rw [g1]
      refine ⟨_, _, rfl, ⟨l, rest, hl, ?_⟩, N, F, U, ls, ?_⟩
      · intro k hk
        rw [huse.mem_iff]
        have := Hf.nums.mem_iff (a := k)
        rw [g2, g3, List.nil_append, List.mem_range] at this
        exact this.mpr hk
      · exact ⟨I.cur, I.parents, I.held, I.nodup, fun r hr => List.mem_append_right _ (I.sub r hr)⟩
    · rw [g1]
      exact ⟨_, _, rfl, g2, N, F, U, ls, I.cur, I.parents, I.held, I.nodup, fun r hr => List.mem_append_right _ (I.sub r hr)⟩
    · rw [g1]
      have hnum : ∀ q ∈ l, w'.h.num q.1 = q.2 := by
        intro q hq
        rw [g2.num q.1 (List.mem_append_right _ (h2.mem_iff.mp (List.mem_map_of_mem hq)))]
        exact h3 q hq
      have hheld : hold w'.h [r] p.held = ((r, w'.h.num r) :: l) :: rest := by rw [hl]; rfl
      have huse' : (inUse l).Perm (U.map w'.h.num) := inUse_perm h2 hnum
      refine ⟨_, _, rfl, ⟨l, rest, r, w'.h.num r, hl, hheld, hnlt g2.cur r List.mem_cons_self, ?_, ?_⟩, N', F', r :: U, ls, ?_⟩
      · rw [huse'.mem_iff]
        have := (List.nodup_append.mp (nums_nodup g2.cur.frame)).2.1
        rw [List.map_cons] at this
        exact (List.nodup_cons.mp this).1
      · rw [h2.mem_iff]; exact g4
      · refine I.step ⟨f1, f2, f3⟩ g2 ⟨l, (r, w'.h.num r) :: l, rest, hl, hheld, ?_, ?_⟩
        · exact List.Perm.cons r h2
        · intro q hq
          rcases List.mem_cons.mp hq with rfl | hq
          · rfl
          · exact hnum q hq
  | range n ms =>
    obtain ⟨hn, f1, f2, f3⟩ := hL
    have hfresh : ∀ m ∈ ms, m ∉ N ++ (F ++ U) := fun m hm h => f3 m hm (hsubc m h)
    obtain ⟨e, w', out, N', F', g1, g2, ⟨k, g3⟩, g4, g5, g6, g7⟩ := genRegRange_ok hn I.cur f1 f2 hfresh
    simp only [regStep]
    rw [g1]
    have hnum : ∀ q ∈ l, w'.h.num q.1 = q.2 := by
      intro q hq
      rw [g2.num q.1 (List.mem_append_right _ (h2.mem_iff.mp (List.mem_map_of_mem hq)))]
      exact h3 q hq
    have hheld : hold w'.h out p.held = (out.map (fun r => (r, w'.h.num r)) ++ l) :: rest := by rw [hl]; rfl
    have huse' : (inUse l).Perm (U.map w'.h.num) := inUse_perm h2 hnum
    have hzip : out.map (fun r => (r, w'.h.num r)) = out.zip (out.map w'.h.num) := by
      rw [List.zip_map_right]
      clear g1 g2 g3 g4 g5 hheld
      induction out with
      | nil => rfl
      | cons a out ih => simp [ih]
    have hndn := (List.nodup_append.mp (nums_nodup g2.cur.frame)).2.1
    rw [List.map_append, List.map_reverse] at hndn
    have hinv : Inv ⟨w', p.parents, hold w'.h out p.held⟩ (ms ++ given) N' F' (out.reverse ++ U) ls := by
      refine I.step ⟨f1, f2, f3⟩ g2 ⟨l, _, rest, hl, hheld, ?_, ?_⟩
      · rw [List.map_append, List.map_map]
        have : out.map ((fun x : Nat × Nat => x.1) ∘ fun r => (r, w'.h.num r)) = out := by
          rw [show ((fun x : Nat × Nat => x.1) ∘ fun r => (r, w'.h.num r)) = id from rfl, List.map_id]
        rw [this]
        exact (List.reverse_perm out).symm.append h2
      · intro q hq
        rcases List.mem_append.mp hq with hq | hq
        · obtain ⟨r, _, rfl⟩ := List.mem_map.mp hq
          rfl
        · exact hnum q hq
    refine ⟨e, _, rfl, ?_, N', F', _, ls, hinv⟩
    cases e with
    | ok =>
      have hlen := g4 rfl
      rw [hlen] at g3
      refine ⟨l, rest, out, k, hl, ?_, hlen, ?_, ?_, ?_⟩
      · rw [hheld, hzip, g3]
      · have hmem : k + n - 1 ∈ out.map w'.h.num := by rw [g3, List.mem_range'_1]; omega
        obtain ⟨r, hr, hre⟩ := List.mem_map.mp hmem
        have := hnlt g2.cur r (List.mem_append_left _ (List.mem_reverse.mpr hr))
        omega
      · intro i hi
        rw [huse'.mem_iff]
        intro hmem
        have hmem2 : k + i ∈ (out.map w'.h.num).reverse := by rw [List.mem_reverse, g3, List.mem_range'_1]; omega
        exact (List.nodup_append.mp hndn).2.2 _ hmem2 _ hmem rfl
      · have hnd := (List.nodup_append.mp g2.cur.frame.nodup).2.1
        exact ((List.reverse_perm out).symm.append h2).nodup_iff.mpr hnd
    | tooMany =>
      refine ⟨l, rest, hl, ?_⟩
      intro k hk
      obtain ⟨i, hi, hm⟩ := g6 rfl k hk
      exact ⟨i, hi, huse.mem_iff.mpr hm⟩
    | oom => exact g7 rfl
  | free reg =>
    obtain ⟨l0, ls0, e0, hreg⟩ := hL
    rw [hl] at e0
    obtain ⟨rfl, rfl⟩ := List.cons.inj e0
    have hU : reg ∈ U := h2.mem_iff.mp hreg
    simp only [regStep]
    by_cases ht : p.cur.h.tmp reg = true
    · obtain ⟨A, B, hAB⟩ := List.append_of_mem hU
      subst hAB
      obtain ⟨w', F', r1, r2, r3, r4, r5, r6, r7, r8⟩ := freeReg_ok I.cur ht
      rw [r1]
      simp only [ht, if_true]
      have hun : unhold reg p.held = l.filter (fun p => p.1 ≠ reg) :: rest := by rw [hl]; rfl
      have ndU := (List.nodup_append.mp Hf.nodup).2.1
      have hfilt : (A ++ reg :: B).filter (fun x => x ≠ reg) = A ++ B := by
        have h1 : ∀ x ∈ A, x ≠ reg := fun x hx => (List.nodup_append.mp ndU).2.2 x hx reg List.mem_cons_self
        have h2 : ∀ x ∈ B, x ≠ reg := by
          intro x hx h
          exact (List.nodup_cons.mp (List.nodup_append.mp ndU).2.1).1 (by rw [← h]; exact hx)
        rw [List.filter_append, List.filter_cons_of_neg (by simp)]
        rw [List.filter_eq_self.mpr (by simpa using h1), List.filter_eq_self.mpr (by simpa using h2)]
      refine ⟨_, _, rfl, ⟨rfl, l, rest, hl, Or.inr hun⟩, N, F', A ++ B, ls, ?_⟩
      have A1 : Adv p.cur w' N F (A ++ reg :: B) [] N F' (A ++ B) := by
        refine ⟨r2, ⟨[], [], rfl, ?_⟩, ?_, ?_, ?_⟩
        · rw [List.nil_append]
          refine List.Perm.append_left N ?_
          refine (r3.append_right _).trans ?_
          rw [List.cons_append]
          have : (F ++ (A ++ reg :: B)).Perm (reg :: (F ++ (A ++ B))) := (List.Perm.append_left F List.perm_middle).trans List.perm_middle
          exact this.symm
        · exact r5.mono fun x hx => by simp only [List.nil_append]; exact List.mem_append_right _ hx
        · intro x _; rw [r4]
        · intro x _; rw [r8]
      refine I.step ⟨List.nodup_nil, by simp, by simp⟩ A1 ⟨l, _, rest, hl, hun, ?_, ?_⟩
      · have := h2.filter (fun x => x ≠ reg)
        rw [hfilt, List.filter_map] at this
        exact this
      · intro q hq
        rw [r4]
        exact h3 q (List.mem_filter.mp hq).1
    · have hres : freeReg p.cur reg = some p.cur := by
        unfold freeReg
        have h0 : reg ≠ 0 := Hf.used.sll.ne_zero reg hU
        rw [if_neg h0, if_neg ht]
      rw [hres]
      simp only [ht, Bool.false_eq_true, if_false]
      exact ⟨_, _, rfl, ⟨rfl, l, rest, hl, Or.inl rfl⟩, N, F, U, ls, I.cur, I.parents, I.held, I.nodup, I.sub⟩
  | setTmp reg b =>
    obtain ⟨l0, ls0, e0, hreg⟩ := hL
    rw [hl] at e0
    obtain ⟨rfl, rfl⟩ := List.cons.inj e0
    have hU : reg ∈ U := h2.mem_iff.mp hreg
    refine ⟨_, _, rfl, ⟨rfl, rfl⟩, N, F, U, ls, tmp_ok I.cur hU b, ?_, ?_, I.nodup, I.sub⟩
    · refine I.parents.congr ?_
      intro r hr
      have : r ≠ reg := fun h => (List.nodup_append.mp I.nodup).2.2 reg (by simp [hU]) r hr h.symm
      refine ⟨rfl, rfl, rfl, ?_⟩
      simp only [upd]; rw [if_neg this]
    · exact I.held.congr fun _ _ _ _ => rfl
  | enter =>
    refine ⟨_, _, rfl, ⟨rfl, rfl⟩, N, [], [], (F, U) :: ls, ⟨I.cur.unused, ⟨rfl, rfl, by simp, by simp, by simp, by simp, by simp⟩, ?_⟩, ⟨Hf, I.parents⟩, ?_, ?_, ?_⟩
    · have := (List.nodup_append.mp I.cur.nodup).1
      simpa using this
    · exact ⟨⟨List.Perm.refl _, by simp⟩, I.held⟩
    · have := I.nodup
      simpa [flat, List.append_assoc] using this
    · intro r hr
      apply I.sub r
      simpa [flat, List.append_assoc] using hr
  | leave =>
    simp only [regStep]
    have hp := I.parents
    cases hpar : p.parents with
    | nil => exact absurd hpar hL
    | cons f fs =>
      rw [hpar] at hp
      cases ls with
      | nil => exact hp.elim
      | cons a ls =>
        simp only []
        have hnd := I.nodup
        have hlen := free_length Hf
        have hle := Hf.le
        have hcur := I.cur.nodup
        have hUN : (U ++ N).Nodup := by
          have h1 : (N ++ U).Nodup := hcur.sublist (List.Sublist.append_left (List.sublist_append_right F U) N)
          exact List.perm_append_comm.nodup_iff.mp h1
        obtain ⟨h1, u1, a1, a2, a3, a4, a5, a6⟩ := freeAllRegs_ok Hf.used.sll I.cur.unused hUN (by omega)
        rw [a1]
        simp only []
        have hFU : ∀ x ∈ F, x ∉ U := fun x hx hxU => (List.nodup_append.mp Hf.nodup).2.2 x hx x hxU rfl
        have hF1 : Sll h1.next p.cur.f.free F := Hf.free.congr fun x hx => a6 x (hFU x hx)
        have hp1 : (F ++ (U ++ N)).Perm (N ++ (F ++ U)) := by
          rw [← List.append_assoc]; exact List.perm_append_comm
        have hnd2 : (F ++ (U ++ N)).Nodup := hp1.nodup_iff.mpr hcur
        obtain ⟨h2', u2, b1, b2, b3, b4, b5, b6⟩ := freeAllRegs_ok hF1 a2 hnd2 (by omega)
        rw [b1]
        have hflat : flat (a :: ls) = (a.1 ++ a.2) ++ flat ls := by simp [flat]
        have hsame : ∀ r ∈ flat (a :: ls), h2'.next r = p.cur.h.next r ∧ h2'.prev r = p.cur.h.prev r ∧ h2'.num r = p.cur.h.num r ∧ h2'.tmp r = p.cur.h.tmp r := by
          intro r hr
          have hno : r ∉ N ++ (F ++ U) := fun h => (List.nodup_append.mp hnd).2.2 r h r hr rfl
          rw [b6 r (fun h => hno (by simp [h])), a6 r (fun h => hno (by simp [h])), b3, a3, b4, a4, b5, a5]
          exact ⟨rfl, rfl, rfl, rfl⟩
        have hparc := hp.congr hsame
        have hheld := I.held
        rw [hl] at hheld
        rw [hflat] at hnd
        have hpp : ((F ++ (U ++ N)) ++ (a.1 ++ a.2) ++ flat ls).Perm ((N ++ (F ++ U)) ++ ((a.1 ++ a.2) ++ flat ls)) := by
          rw [List.append_assoc]
          exact hp1.append_right _
        refine ⟨_, _, rfl, ⟨rfl, l, by rw [hl]; rfl⟩, F ++ (U ++ N), a.1, a.2, ls, ⟨b2, hparc.1, ?_⟩, hparc.2, ?_, hpp.nodup_iff.mpr hnd, ?_⟩
        · have := hpp.nodup_iff.mpr hnd
          exact (List.nodup_append.mp this).1
        · show HeldOK h2' (p.held.drop 1) (a.2 :: ls.map (·.2))
          rw [hl]
          refine hheld.2.congr ?_
          intro u hu r hr
          exact (hsame r (mem_flat hu hr)).2.2.1
        · intro r hr
          apply I.sub r
          rw [hflat]
          exact hpp.mem_iff.mp hr

theorem inv_init (h : RegHeap) : Inv (regInit h) [] [] [] [] [] :=
  ⟨⟨rfl, ⟨rfl, rfl, by simp, by simp, by simp [regInit], by simp, by simp [regInit]⟩, by simp⟩, trivial, ⟨⟨List.Perm.refl _, by simp⟩, trivial⟩, by simp [flat], by simp [flat]⟩

theorem run_inv (es : List RegEv) : ∀ (p : RegProg) (given N F U : List Nat) (ls : List (List Nat × List Nat)), Inv p given N F U ls → Legal p given es →
    ∃ e p', regRun p es = some (e, p') ∧ ∃ given' N' F' U' ls', Inv p' given' N' F' U' ls' := by
  induction es with
  | nil => intro p given N F U ls I _; exact ⟨.ok, p, rfl, given, N, F, U, ls, I⟩
  | cons ev es ih =>
    intro p given N F U ls I hL
    obtain ⟨e, p', s1, s2, N', F', U', ls', I'⟩ := step_spec I ev hL.1
    unfold regRun
    rw [s1]
    cases e with
    | ok => exact ih p' _ N' F' U' ls' I' (hL.2 p' s1)
    | tooMany => exact ⟨_, _, rfl, _, N', F', U', ls', I'⟩
    | oom => exact ⟨_, _, rfl, _, N', F', U', ls', I'⟩

theorem run_append (es : List RegEv) : ∀ (p : RegProg) (given N F U : List Nat) (ls : List (List Nat × List Nat)) (es' : List RegEv) (p' : RegProg), Inv p given N F U ls →
    Legal p given (es ++ es') → regRun p es = some (.ok, p') → ∃ given' N' F' U' ls', Inv p' given' N' F' U' ls' ∧ Legal p' given' es' := by
  induction es with
  | nil => intro p given N F U ls es' p' I hL h; cases h; exact ⟨given, N, F, U, ls, I, hL⟩
  | cons ev es ih =>
    intro p given N F U ls es' p' I hL h
    obtain ⟨e, p1, s1, s2, N', F', U', ls', I'⟩ := step_spec I ev hL.1
    unfold regRun at h
    rw [s1] at h
    cases e with
    | ok => exact ih p1 _ N' F' U' ls' es' p' I' (hL.2 p1 s1) h
    | tooMany => cases h
    | oom => cases h

/-! ## Theorems -/

/-- **C35**: whatever the compiler does with registers, pointers are valid at each step, no assertion fails, and in each function being compiled the held
registers have different numbers below the frame's count of at most 255, which never change. -/
theorem C35_registers (h : RegHeap) (es : List RegEv) (hL : Legal (regInit h) [] es) : ∃ e p, regRun (regInit h) es = some (e, p) ∧ Sound p := by
  obtain ⟨e, p, h1, _, _, _, _, _, I⟩ := run_inv es _ _ _ _ _ _ (inv_init h) hL
  exact ⟨e, p, h1, I.sound⟩

/-- **C35**, each operation: a single register has a number which is not in use; a range has consecutive numbers, none in use. Allocation fails only if
memory was refused, or if all 255 registers (for ranges: each range of that length) are in use. -/
theorem C35_operation (h : RegHeap) (es : List RegEv) (ev : RegEv) (hL : Legal (regInit h) [] (es ++ [ev])) (p : RegProg) (hr : regRun (regInit h) es = some (.ok, p)) :
    ∃ e p', regStep p ev = some (e, p') ∧ StepSpec p.held ev e p'.held := by
  obtain ⟨_, _, _, _, _, I, hL'⟩ := run_append es _ _ _ _ _ _ [ev] p (inv_init h) hL hr
  obtain ⟨e, p', s1, s2, _⟩ := step_spec I ev hL'.1
  exact ⟨e, p', s1, s2⟩

/-! ## Example -/

def emptyHeap : RegHeap := ⟨fun _ => 0, fun _ => 0, fun _ => 0, fun _ => false⟩

/-- Four registers, of which the second and the fourth are released; a range of three takes the last one and adds two. -/
def exampleRun : List RegEv := [.one [10], .one [11], .one [12], .one [13], .free 11, .free 13, .range 3 [14, 15, 16]]

example : (regRun (regInit emptyHeap) exampleRun).map (fun x => (x.1, x.2.held)) =
    some (.ok, [[(13, 3), (14, 4), (15, 5), (12, 2), (10, 0)]]) := by decide +kernel

/-- A nested function, whose object is used again afterwards. -/
example : (regRun (regInit emptyHeap) [.one [10], .enter, .one [11], .leave, .one [12]]).map (fun x => (x.1, x.2.held)) =
    some (.ok, [[(11, 1), (10, 0)]]) := by decide +kernel

end Verif.Props.C35
