import Verif.Compiler.Regs

/-! Lemmas on lists of register objects in memory (C35). -/
namespace Verif.Compiler

/-- Singly linked list. -/
def Sll (next : Nat → Nat) : Nat → List Nat → Prop
  | p, [] => p = 0
  | p, a :: l => p = a ∧ a ≠ 0 ∧ Sll next (next a) l

/-- Doubly linked list; `pr` is the node before the first one. -/
def Dll (h : RegHeap) : Nat → Nat → List Nat → Prop
  | _, p, [] => p = 0
  | pr, p, a :: l => p = a ∧ a ≠ 0 ∧ h.prev a = pr ∧ Dll h a (h.next a) l

theorem Sll.congr {next next' : Nat → Nat} : ∀ {l : List Nat} {p : Nat}, Sll next p l → (∀ a ∈ l, next' a = next a) → Sll next' p l := by
  intro l
  induction l with
  | nil => intro p h _; exact h
  | cons a l ih =>
    intro p h hc
    refine ⟨h.1, h.2.1, ?_⟩
    rw [hc a List.mem_cons_self]
    exact ih h.2.2 (fun b hb => hc b (List.mem_cons_of_mem _ hb))

theorem Dll.congr {h h' : RegHeap} : ∀ {l : List Nat} {pr p : Nat}, Dll h pr p l → (∀ a ∈ l, h'.next a = h.next a ∧ h'.prev a = h.prev a) → Dll h' pr p l := by
  intro l
  induction l with
  | nil => intro pr p h _; exact h
  | cons a l ih =>
    intro pr p h1 hc
    refine ⟨h1.1, h1.2.1, ?_, ?_⟩
    · rw [(hc a List.mem_cons_self).2]; exact h1.2.2.1
    · rw [(hc a List.mem_cons_self).1]
      exact ih h1.2.2.2 (fun b hb => hc b (List.mem_cons_of_mem _ hb))

theorem Dll.sll {h : RegHeap} : ∀ {l : List Nat} {pr p : Nat}, Dll h pr p l → Sll h.next p l := by
  intro l
  induction l with
  | nil => intro pr p h; exact h
  | cons a l ih => intro pr p h; exact ⟨h.1, h.2.1, ih h.2.2.2⟩

theorem Sll.ne_zero {next : Nat → Nat} : ∀ {l : List Nat} {p : Nat}, Sll next p l → ∀ a ∈ l, a ≠ 0 := by
  intro l
  induction l with
  | nil => intro p _ a ha; cases ha
  | cons b l ih =>
    intro p h a ha
    rcases List.mem_cons.mp ha with rfl | ha
    · exact h.2.1
    · exact ih h.2.2 a ha

def linkVal (next : Nat → Nat) (p : Nat) : Option Nat → Nat
  | none => p
  | some r => next r

theorem getLast?_cons' (a : Nat) (A : List Nat) : (a :: A).getLast? = some ((A.getLast?).getD a) := by
  simp [List.getLast?_cons]

theorem Sll.split {next : Nat → Nat} : ∀ {A B : List Nat} {p : Nat}, Sll next p (A ++ B) → Sll next (linkVal next p A.getLast?) B := by
  intro A
  induction A with
  | nil => intro B p h; exact h
  | cons a A ih =>
    intro B p h
    have := ih h.2.2
    rw [getLast?_cons']
    cases hA : A.getLast? with
    | none => rw [hA] at this; exact this
    | some r => rw [hA] at this; exact this

/-- Replaces the rest of a list. -/
theorem Sll.relink {next next' : Nat → Nat} {B' : List Nat} {v : Nat} : ∀ {A B : List Nat} {p p' : Nat}, Sll next p (A ++ B) → A.Nodup → Sll next' v B' →
    (∀ a ∈ A, A.getLast? ≠ some a → next' a = next a) → (∀ r, A.getLast? = some r → next' r = v) → (p' = if A = [] then v else p) → Sll next' p' (A ++ B') := by
  intro A
  induction A with
  | nil => intro B p p' _ _ h _ _ hp; simp at hp; subst hp; exact h
  | cons a A ih =>
    intro B p p' h1 hnd h2 h3 h4 hp
    rw [if_neg (by simp)] at hp
    subst hp
    refine ⟨h1.1, h1.2.1, ?_⟩
    obtain ⟨hna, hnd⟩ := List.nodup_cons.mp hnd
    have h3' : ∀ b ∈ A, A.getLast? ≠ some b → next' b = next b := by
      intro b hb hl
      apply h3 b (List.mem_cons_of_mem _ hb)
      rw [getLast?_cons']
      intro h
      cases hA : A.getLast? with
      | none => rw [List.getLast?_eq_none_iff] at hA; rw [hA] at hb; cases hb
      | some r => rw [hA] at h hl; simp at h; exact hl (by rw [h])
    have h4' : ∀ r, A.getLast? = some r → next' r = v := by
      intro r hr
      apply h4
      rw [getLast?_cons', hr]; rfl
    cases A with
    | nil =>
      have hr := h4 a (by simp)
      show Sll next' (next' a) B'
      rw [hr]; exact h2
    | cons c A =>
      have ha : next' a = next a := by
        apply h3 a List.mem_cons_self
        rw [getLast?_cons']
        intro h
        have : ((c :: A).getLast?).getD a ∈ c :: A := by
          rw [getLast?_cons']
          simp only [Option.getD_some]
          cases hA : A.getLast? with
          | none => exact List.mem_cons_self
          | some r => exact List.mem_cons_of_mem _ (List.mem_of_getLast? hA)
        simp only [Option.some.injEq] at h
        rw [h] at this
        exact hna this
      exact ih h1.2.2 hnd h2 h3' h4' (by simp [ha])

theorem linkVal_deref (w : RegState) (o : Option Nat) : derefLink w o = linkVal w.h.next w.f.free o := by
  cases o <;> rfl

/-- Lists of one frame. -/
structure FrameOK (h : RegHeap) (f : RFrame) (F U : List Nat) : Prop where
  free : Sll h.next f.free F
  used : Dll h 0 f.used U
  nodup : (F ++ U).Nodup
  sorted : F.Pairwise (fun a b => h.num a < h.num b)
  nums : ((F ++ U).map h.num).Perm (List.range f.numRegs)
  tmp : ∀ r ∈ F, h.tmp r = true
  le : f.numRegs ≤ 255

theorem FrameOK.congr {h h' : RegHeap} {f : RFrame} {F U : List Nat} (H : FrameOK h f F U)
    (hc : ∀ r ∈ F ++ U, h'.next r = h.next r ∧ h'.prev r = h.prev r ∧ h'.num r = h.num r ∧ h'.tmp r = h.tmp r) : FrameOK h' f F U := by
  have hF : ∀ r ∈ F, r ∈ F ++ U := fun r hr => List.mem_append_left _ hr
  have hU : ∀ r ∈ U, r ∈ F ++ U := fun r hr => List.mem_append_right _ hr
  refine ⟨H.free.congr fun a ha => (hc a (hF a ha)).1, H.used.congr fun a ha => ⟨(hc a (hU a ha)).1, (hc a (hU a ha)).2.1⟩, H.nodup, ?_, ?_, ?_, H.le⟩
  · refine H.sorted.imp_of_mem ?_
    intro a b ha hb hab
    rw [(hc a (hF a ha)).2.2.1, (hc b (hF b hb)).2.2.1]; exact hab
  · rw [show (F ++ U).map h'.num = (F ++ U).map h.num from List.map_congr_left fun r hr => (hc r hr).2.2.1]
    exact H.nums
  · intro r hr; rw [(hc r (hF r hr)).2.2.2]; exact H.tmp r hr

/-- The current frame and the unused registers. -/
structure CurOK (w : RegState) (N F U : List Nat) : Prop where
  unused : Sll w.h.next w.unused N
  frame : FrameOK w.h w.f F U
  nodup : (N ++ (F ++ U)).Nodup

/-- Memory outside of some nodes is unchanged. -/
def Outside (X : List Nat) (h h' : RegHeap) : Prop :=
  ∀ r, r ∉ X → h'.next r = h.next r ∧ h'.prev r = h.prev r ∧ h'.num r = h.num r ∧ h'.tmp r = h.tmp r

theorem Outside.refl (X : List Nat) (h : RegHeap) : Outside X h h := fun _ _ => ⟨rfl, rfl, rfl, rfl⟩

theorem Outside.trans {X : List Nat} {h h' h'' : RegHeap} (a : Outside X h h') (b : Outside X h' h'') : Outside X h h'' := by
  intro r hr
  obtain ⟨a1, a2, a3, a4⟩ := a r hr
  obtain ⟨b1, b2, b3, b4⟩ := b r hr
  exact ⟨b1.trans a1, b2.trans a2, b3.trans a3, b4.trans a4⟩

theorem Outside.mono {X Y : List Nat} {h h' : RegHeap} (a : Outside X h h') (hXY : ∀ r ∈ X, r ∈ Y) : Outside Y h h' :=
  fun r hr => a r (fun hx => hr (hXY r hx))

/-! ### Marking as used -/

theorem mark_next (w : RegState) (r x : Nat) : (markRegAsUsed w r).h.next x = if x = r then w.f.used else w.h.next x := by
  unfold markRegAsUsed upd
  split <;> rfl

theorem mark_num (w : RegState) (r : Nat) : (markRegAsUsed w r).h.num = w.h.num := by
  unfold markRegAsUsed; split <;> rfl

theorem mark_tmp (w : RegState) (r : Nat) : (markRegAsUsed w r).h.tmp = w.h.tmp := by
  unfold markRegAsUsed; split <;> rfl

theorem mark_prev (w : RegState) (r x : Nat) : (markRegAsUsed w r).h.prev x =
    if w.f.used ≠ 0 ∧ x = w.f.used then r else if x = r then 0 else w.h.prev x := by
  unfold markRegAsUsed
  simp only []
  by_cases hu : w.f.used ≠ 0
  · rw [if_pos hu]
    simp only [upd]
    by_cases hx : x = w.f.used
    · rw [if_pos hx, if_pos ⟨hu, hx⟩]
    · rw [if_neg hx, if_neg (show ¬ (w.f.used ≠ 0 ∧ x = w.f.used) from fun h => hx h.2)]
  · rw [if_neg hu, if_neg (fun h => hu h.1)]
    simp only [upd]

theorem mark_dll {w : RegState} {U : List Nat} (hd : Dll w.h 0 w.f.used U) (hnd : U.Nodup) {r : Nat} (hr : r ∉ U) (hr0 : r ≠ 0) :
    Dll (markRegAsUsed w r).h 0 r (r :: U) := by
  have hru : w.f.used ≠ 0 → r ≠ w.f.used := by
    intro h0
    cases U with
    | nil => exact absurd hd h0
    | cons a U => intro h; rw [hd.1] at h; exact hr (by rw [h]; exact List.mem_cons_self)
  refine ⟨rfl, hr0, ?_, ?_⟩
  · rw [mark_prev, if_neg (fun h => hru h.1 h.2), if_pos rfl]
  · rw [mark_next, if_pos rfl]
    cases U with
    | nil => exact hd
    | cons a U =>
      obtain ⟨d1, d2, d3, d4⟩ := hd
      obtain ⟨n1, n2⟩ := List.nodup_cons.mp hnd
      refine ⟨d1, d2, ?_, ?_⟩
      · rw [mark_prev, if_pos ⟨by rw [d1]; exact d2, d1.symm⟩]
      · rw [mark_next, if_neg (fun h => hr (by rw [← h]; exact List.mem_cons_self))]
        refine d4.congr ?_
        intro x hx
        have hxr : x ≠ r := fun h => hr (by rw [← h]; exact List.mem_cons_of_mem _ hx)
        have hxa : x ≠ w.f.used := fun h => n1 (by rw [← d1, ← h]; exact hx)
        rw [mark_next, if_neg hxr, mark_prev, if_neg (fun h => hxa h.2), if_neg hxr]
        exact ⟨rfl, rfl⟩

theorem used_mem {h : RegHeap} {f : RFrame} {F U : List Nat} (H : FrameOK h f F U) (h0 : f.used ≠ 0) : f.used ∈ U := by
  have := H.used
  cases U with
  | nil => exact absurd this h0
  | cons a U => rw [this.1]; exact List.mem_cons_self

theorem mark_outside {w : RegState} {F U : List Nat} (H : FrameOK w.h w.f F U) (r : Nat) : Outside (r :: U) w.h (markRegAsUsed w r).h := by
  intro x hx
  have hxr : x ≠ r := fun h => hx (by rw [h]; exact List.mem_cons_self)
  have hxu : ¬ (w.f.used ≠ 0 ∧ x = w.f.used) := by
    rintro ⟨h1, h2⟩
    exact hx (List.mem_cons_of_mem _ (by rw [h2]; exact used_mem H h1))
  rw [mark_next, if_neg hxr, mark_prev, if_neg hxu, if_neg hxr, mark_num, mark_tmp]
  exact ⟨rfl, rfl, rfl, rfl⟩

/-! ### Removal from the free list and marking as used -/

theorem setLink_num (w : RegState) (o : Option Nat) (v : Nat) : (setLink w o v).h.num = w.h.num := by cases o <;> rfl
theorem setLink_tmp (w : RegState) (o : Option Nat) (v : Nat) : (setLink w o v).h.tmp = w.h.tmp := by cases o <;> rfl
theorem setLink_prev (w : RegState) (o : Option Nat) (v : Nat) : (setLink w o v).h.prev = w.h.prev := by cases o <;> rfl
theorem setLink_used (w : RegState) (o : Option Nat) (v : Nat) : (setLink w o v).f.used = w.f.used := by cases o <;> rfl
theorem setLink_numRegs (w : RegState) (o : Option Nat) (v : Nat) : (setLink w o v).f.numRegs = w.f.numRegs := by cases o <;> rfl
theorem setLink_unused (w : RegState) (o : Option Nat) (v : Nat) : (setLink w o v).unused = w.unused := by cases o <;> rfl
theorem setLink_next (w : RegState) (o : Option Nat) (v x : Nat) : (setLink w o v).h.next x = if o = some x then v else w.h.next x := by
  cases o with
  | none => simp [setLink]
  | some r =>
    simp only [setLink, upd]
    by_cases h : x = r
    · subst h; simp
    · rw [if_neg h, if_neg (fun h' => h (by simpa using h'.symm))]
theorem setLink_free (w : RegState) (o : Option Nat) (v : Nat) : (setLink w o v).f.free = if o = none then v else w.f.free := by cases o <;> rfl

/-- The register behind a link is taken out of the free list. -/
theorem take_ok {w : RegState} {N A B U : List Nat} {r : Nat} (H : CurOK w N (A ++ r :: B) U) :
    CurOK (setLink (markRegAsUsed w r) A.getLast? (w.h.next r)) N (A ++ B) (r :: U) ∧
      Outside (A ++ r :: B ++ U) w.h (setLink (markRegAsUsed w r) A.getLast? (w.h.next r)).h ∧
      (setLink (markRegAsUsed w r) A.getLast? (w.h.next r)).h.num = w.h.num ∧
      linkVal (setLink (markRegAsUsed w r) A.getLast? (w.h.next r)).h.next (setLink (markRegAsUsed w r) A.getLast? (w.h.next r)).f.free A.getLast? = w.h.next r ∧
      (setLink (markRegAsUsed w r) A.getLast? (w.h.next r)).f.numRegs = w.f.numRegs ∧
      (setLink (markRegAsUsed w r) A.getLast? (w.h.next r)).h.tmp = w.h.tmp := by
  generalize hw : setLink (markRegAsUsed w r) A.getLast? (w.h.next r) = w'
  have Hf := H.frame
  have hsll := Hf.free
  have hsplit := hsll.split
  obtain ⟨s1, s2, s3⟩ := hsplit
  have hnd := H.nodup
  have ndF : (A ++ r :: B).Nodup := (List.nodup_append.mp Hf.nodup).1
  have ndA : A.Nodup := (List.nodup_append.mp ndF).1
  have ndU : U.Nodup := (List.nodup_append.mp Hf.nodup).2.1
  have hAr : ∀ a ∈ A, a ≠ r := fun a ha => (List.nodup_append.mp ndF).2.2 a ha r List.mem_cons_self
  have hAB : ∀ a ∈ A, ∀ b ∈ B, a ≠ b := fun a ha b hb => (List.nodup_append.mp ndF).2.2 a ha b (List.mem_cons_of_mem _ hb)
  have hrB : r ∉ B := (List.nodup_cons.mp (List.nodup_append.mp ndF).2.1).1
  have hFU : ∀ a ∈ A ++ r :: B, ∀ b ∈ U, a ≠ b := (List.nodup_append.mp Hf.nodup).2.2
  have hrU : r ∉ U := fun h => hFU r (by simp) r h rfl
  have hNo : ∀ a ∈ N, ∀ b ∈ (A ++ r :: B) ++ U, a ≠ b := (List.nodup_append.mp hnd).2.2
  have hlast : ∀ x, A.getLast? = some x → x ∈ A := fun x h => List.mem_of_getLast? h
  -- next pointers
  have hnext : ∀ x, w'.h.next x = if A.getLast? = some x then w.h.next r else if x = r then w.f.used else w.h.next x := by
    intro x; rw [← hw, setLink_next, mark_next]
  have hprev : ∀ x, w'.h.prev x = (markRegAsUsed w r).h.prev x := by intro x; rw [← hw, setLink_prev]
  have hnum : w'.h.num = w.h.num := by rw [← hw, setLink_num, mark_num]
  have htmp : w'.h.tmp = w.h.tmp := by rw [← hw, setLink_tmp, mark_tmp]
  have hfr : w'.f.free = if A.getLast? = none then w.h.next r else w.f.free := by rw [← hw, setLink_free]; rfl
  have hus : w'.f.used = r := by rw [← hw, setLink_used]; rfl
  have hnr : w'.f.numRegs = w.f.numRegs := by rw [← hw, setLink_numRegs]; rfl
  have hun : w'.unused = w.unused := by rw [← hw, setLink_unused]; rfl
  have hnext_other : ∀ x, x ∉ A → x ≠ r → w'.h.next x = w.h.next x := by
    intro x hx hxr
    rw [hnext, if_neg (fun h => hx (hlast x h)), if_neg hxr]
  refine ⟨⟨?_, ⟨?_, ?_, ?_, ?_, ?_, ?_, ?_⟩, ?_⟩, ?_, hnum, ?_, hnr, htmp⟩
  · rw [hun]
    refine H.unused.congr ?_
    intro a ha
    exact hnext_other a (fun h => hNo a ha a (by simp [h]) rfl) (fun h => hNo a ha r (by simp) h)
  · refine Sll.relink hsll ndA (next' := w'.h.next) (v := w.h.next r) (B' := B) ?_ ?_ ?_ ?_
    · refine s3.congr ?_
      intro b hb
      exact hnext_other b (fun h => hAB b h b hb rfl) (fun h => hrB (by rw [← h]; exact hb))
    · intro a ha hl
      rw [hnext, if_neg hl, if_neg (hAr a ha)]
    · intro x hx
      rw [hnext, if_pos hx]
    · rw [hfr]; simp only [List.getLast?_eq_none_iff]
  · rw [hus]
    refine (mark_dll Hf.used ndU hrU s2).congr ?_
    intro a ha
    have haA : a ∉ A := by
      intro h
      rcases List.mem_cons.mp ha with rfl | h2
      · exact hAr a h rfl
      · exact hFU a (by simp [h]) a h2 rfl
    rw [hprev]
    refine ⟨?_, rfl⟩
    rw [← hw, setLink_next, if_neg (fun h => haA (hlast a h))]
  · have hp : ((A ++ B) ++ r :: U).Perm ((A ++ r :: B) ++ U) := by
      refine List.perm_middle.trans ?_
      rw [← List.cons_append]
      exact (List.perm_middle.symm).append_right U
    exact hp.nodup_iff.mpr Hf.nodup
  · rw [hnum]
    obtain ⟨p1, p2, p3⟩ := List.pairwise_append.mp Hf.sorted
    exact List.pairwise_append.mpr ⟨p1, (List.pairwise_cons.mp p2).2, fun a ha b hb => p3 a ha b (List.mem_cons_of_mem _ hb)⟩
  · rw [hnum, hnr]
    have hp : ((A ++ B) ++ r :: U).Perm ((A ++ r :: B) ++ U) := by
      refine List.perm_middle.trans ?_
      rw [← List.cons_append]
      exact (List.perm_middle.symm).append_right U
    exact (hp.map w.h.num).trans Hf.nums
  · intro x hx
    rw [htmp]
    refine Hf.tmp x ?_
    rcases List.mem_append.mp hx with h | h
    · simp [h]
    · simp [h]
  · rw [hnr]; exact Hf.le
  · have hp : (N ++ ((A ++ B) ++ r :: U)).Perm (N ++ ((A ++ r :: B) ++ U)) := by
      refine List.Perm.append_left N ?_
      refine List.perm_middle.trans ?_
      rw [← List.cons_append]
      exact (List.perm_middle.symm).append_right U
    exact hp.nodup_iff.mpr hnd
  · intro x hx
    have hxA : x ∉ A := fun h => hx (by simp [h])
    have hxr : x ≠ r := fun h => hx (by simp [h])
    have hxU : x ∉ r :: U := by
      intro h; rcases List.mem_cons.mp h with h | h
      · exact hxr h
      · exact hx (by simp [h])
    refine ⟨hnext_other x hxA hxr, ?_, by rw [hnum], by rw [htmp]⟩
    rw [hprev]; exact (mark_outside Hf r x hxU).2.1
  · cases hA : A.getLast? with
    | none =>
      simp only [linkVal]
      rw [hfr, hA, if_pos rfl]
    | some x =>
      simp only [linkVal]
      rw [hnext, if_pos hA]

/-! ### New registers -/

/-- Changes of `tmp` of used registers. -/
theorem tmp_ok {w : RegState} {N F U : List Nat} (H : CurOK w N F U) {r : Nat} (hr : r ∈ U) (b : Bool) :
    CurOK { w with h := { w.h with tmp := upd w.h.tmp r b } } N F U := by
  have Hf := H.frame
  refine ⟨H.unused, ⟨Hf.free, ?_, Hf.nodup, Hf.sorted, Hf.nums, ?_, Hf.le⟩, H.nodup⟩
  · exact Hf.used.congr fun a _ => ⟨rfl, rfl⟩
  · intro x hx
    have : x ≠ r := (List.nodup_append.mp Hf.nodup).2.2 x hx r hr
    simp only [upd]; rw [if_neg this]; exact Hf.tmp x hx

theorem range_perm_snoc {l : List Nat} {n : Nat} (h : l.Perm (List.range n)) : (n :: l).Perm (List.range (n + 1)) := by
  rw [List.range_succ]
  exact (List.Perm.cons n h).trans (List.perm_append_singleton n _).symm

/-- A register object which is in no list becomes a used one with the next number. -/
theorem add_ok {w : RegState} {N F U N' : List Nat} {r u : Nat} (H : CurOK w N F U) (hN : Sll w.h.next u N') (hr0 : r ≠ 0) (hrF : r ∉ F) (hrU : r ∉ U)
    (hrN : r ∉ N') (hnd : (N' ++ (F ++ U)).Nodup) (hlt : w.f.numRegs < 255) :
    CurOK (markRegAsUsed ⟨{ w.h with num := upd w.h.num r w.f.numRegs }, u, { w.f with numRegs := w.f.numRegs + 1 }⟩ r) N' F (r :: U) := by
  have Hf := H.frame
  generalize hw1 : (⟨{ w.h with num := upd w.h.num r w.f.numRegs }, u, { w.f with numRegs := w.f.numRegs + 1 }⟩ : RegState) = w1
  have e1 : w1.h.next = w.h.next := by rw [← hw1]
  have e2 : w1.h.prev = w.h.prev := by rw [← hw1]
  have e3 : w1.h.num = upd w.h.num r w.f.numRegs := by rw [← hw1]
  have e4 : w1.h.tmp = w.h.tmp := by rw [← hw1]
  have e5 : w1.f.used = w.f.used := by rw [← hw1]
  have e6 : w1.f.free = w.f.free := by rw [← hw1]
  have e7 : w1.f.numRegs = w.f.numRegs + 1 := by rw [← hw1]
  have e8 : w1.unused = u := by rw [← hw1]
  have ndU : U.Nodup := (List.nodup_append.mp Hf.nodup).2.1
  have hFU : ∀ a ∈ F, ∀ b ∈ U, a ≠ b := (List.nodup_append.mp Hf.nodup).2.2
  have hNo : ∀ a ∈ N', ∀ b ∈ F ++ U, a ≠ b := (List.nodup_append.mp hnd).2.2
  have hd1 : Dll w1.h 0 w1.f.used U := by
    rw [e5]; exact Hf.used.congr fun a _ => by rw [e1, e2]; exact ⟨rfl, rfl⟩
  have hnum : ∀ x, x ≠ r → w1.h.num x = w.h.num x := by
    intro x hx; rw [e3]; simp only [upd]; rw [if_neg hx]
  have hmap : ∀ l : List Nat, r ∉ l → l.map w1.h.num = l.map w.h.num := by
    intro l hl
    exact List.map_congr_left fun x hx => hnum x (fun h => hl (by rw [← h]; exact hx))
  refine ⟨?_, ⟨?_, mark_dll hd1 ndU hrU hr0, ?_, ?_, ?_, ?_, ?_⟩, ?_⟩
  · show Sll _ w1.unused N'
    rw [e8]
    refine hN.congr ?_
    intro a ha
    rw [mark_next, if_neg (fun h => hrN (by rw [← h]; exact ha)), e1]
  · show Sll _ w1.f.free F
    rw [e6]
    refine Hf.free.congr ?_
    intro a ha
    rw [mark_next, if_neg (fun h => hrF (by rw [← h]; exact ha)), e1]
  · refine (List.perm_middle (a := r) (l₁ := F) (l₂ := U)).nodup_iff.mpr ?_
    refine List.nodup_cons.mpr ⟨?_, Hf.nodup⟩
    intro h; rcases List.mem_append.mp h with h | h
    · exact hrF h
    · exact hrU h
  · rw [mark_num]
    refine Hf.sorted.imp_of_mem ?_
    intro a b ha hb hab
    rw [hnum a (fun h => hrF (by rw [← h]; exact ha)), hnum b (fun h => hrF (by rw [← h]; exact hb))]; exact hab
  · rw [mark_num]
    show ((F ++ r :: U).map w1.h.num).Perm (List.range w1.f.numRegs)
    rw [e7]
    refine ((List.perm_middle (a := r) (l₁ := F) (l₂ := U)).map w1.h.num).trans ?_
    rw [List.map_cons, hmap (F ++ U) (by simp [hrF, hrU])]
    have : w1.h.num r = w.f.numRegs := by rw [e3]; simp [upd]
    rw [this]
    exact range_perm_snoc Hf.nums
  · intro x hx
    rw [mark_tmp, e4]; exact Hf.tmp x hx
  · show w1.f.numRegs ≤ 255
    rw [e7]; omega
  · have hp : (N' ++ (F ++ r :: U)).Perm (r :: (N' ++ (F ++ U))) := by
      refine (List.Perm.append_left N' List.perm_middle).trans ?_
      exact List.perm_middle
    rw [hp.nodup_iff]
    refine List.nodup_cons.mpr ⟨?_, hnd⟩
    intro h
    rcases List.mem_append.mp h with h | h
    · exact hrN h
    · rcases List.mem_append.mp h with h | h
      · exact hrF h
      · exact hrU h

/-- `gen_new_reg`, `mark_reg_as_used` and setting of `tmp`. -/
theorem newReg_ok {w : RegState} {N F U ms : List Nat} (H : CurOK w N F U) (hms : ms.Nodup) (hms0 : 0 ∉ ms) (hfresh : ∀ m ∈ ms, m ∉ N ++ (F ++ U)) :
    (w.f.numRegs = 255 ∧ genNewReg w ms = (.tooMany, w, ms, 0)) ∨
    (w.f.numRegs < 255 ∧ ms = [] ∧ genNewReg w ms = (.oom, w, [], 0)) ∨
    (w.f.numRegs < 255 ∧ ∃ w1 ms1 r N' c, genNewReg w ms = (.ok, w1, ms1, r) ∧
      CurOK (markRegAsUsed w1 r) N' F (r :: U) ∧ CurOK { markRegAsUsed w1 r with h := { (markRegAsUsed w1 r).h with tmp := upd (markRegAsUsed w1 r).h.tmp r true } } N' F (r :: U) ∧
      ms = c ++ ms1 ∧ (N ++ c).Perm (r :: N') ∧ (markRegAsUsed w1 r).h.num r = w.f.numRegs ∧
      (∀ x, x ≠ r → (markRegAsUsed w1 r).h.num x = w.h.num x) ∧
      Outside (r :: U) w.h (markRegAsUsed w1 r).h ∧ w1.f.numRegs = w.f.numRegs + 1 ∧ w1.f.free = w.f.free ∧ c.length ≤ 1) := by
  have Hf := H.frame
  unfold genNewReg
  by_cases h255 : w.f.numRegs = 255
  · left; rw [if_pos h255]; exact ⟨h255, rfl⟩
  right
  rw [if_neg h255]
  have hlt : w.f.numRegs < 255 := by have := Hf.le; omega
  have hout : ∀ (r u : Nat), Outside (r :: U) w.h
      (markRegAsUsed ⟨{ w.h with num := upd w.h.num r w.f.numRegs }, u, { w.f with numRegs := w.f.numRegs + 1 }⟩ r).h := by
    intro r u x hx
    have hxr : x ≠ r := fun h => hx (by rw [h]; exact List.mem_cons_self)
    rw [mark_next, if_neg hxr, mark_prev, mark_num, mark_tmp]
    refine ⟨rfl, ?_, ?_, rfl⟩
    · rw [if_neg, if_neg hxr]
      rintro ⟨h1, h2⟩
      have h3 : w.f.used ∈ U := used_mem Hf h1
      exact hx (List.mem_cons_of_mem _ (by rw [h2]; exact h3))
    · simp only [upd]; rw [if_neg hxr]
  have hnum : ∀ (r u x : Nat), x ≠ r →
      (markRegAsUsed ⟨{ w.h with num := upd w.h.num r w.f.numRegs }, u, { w.f with numRegs := w.f.numRegs + 1 }⟩ r).h.num x = w.h.num x := by
    intro r u x hx
    rw [mark_num]; simp only [upd]; rw [if_neg hx]
  have hnumr : ∀ (r u : Nat),
      (markRegAsUsed ⟨{ w.h with num := upd w.h.num r w.f.numRegs }, u, { w.f with numRegs := w.f.numRegs + 1 }⟩ r).h.num r = w.f.numRegs := by
    intro r u
    rw [mark_num]; simp [upd]
  by_cases hu : w.unused ≠ 0
  · right
    rw [if_pos hu]
    have hun := H.unused
    have hnd := H.nodup
    cases N with
    | nil => exact absurd hun hu
    | cons r N =>
      obtain ⟨s1, s2, s3⟩ := hun
      rw [List.cons_append] at hnd
      obtain ⟨n1, n2⟩ := List.nodup_cons.mp hnd
      have hc := add_ok H (r := w.unused) (u := w.h.next w.unused) (N' := N) (by rw [s1]; exact s3) hu (fun h => n1 (by rw [← s1]; simp [h]))
        (fun h => n1 (by rw [← s1]; simp [h])) (fun h => n1 (by rw [← s1]; simp [h])) n2 hlt
      refine ⟨hlt, _, _, _, N, [], rfl, hc, tmp_ok hc List.mem_cons_self true, rfl, ?_, hnumr _ _, hnum _ _, hout _ _, rfl, rfl, by simp⟩
      rw [s1, List.append_nil]
  · rw [if_neg hu]
    cases ms with
    | nil => left; exact ⟨hlt, rfl, rfl⟩
    | cons r ms =>
      right
      have hun := H.unused
      have hN : N = [] := by
        cases N with
        | nil => rfl
        | cons r N => exact absurd (by rw [hun.1]; exact hun.2.1) hu
      subst hN
      have hf := hfresh r List.mem_cons_self
      have hr0 : r ≠ 0 := fun h => hms0 (by rw [h]; exact List.mem_cons_self)
      have hc := add_ok H (r := r) (u := w.unused) (N' := []) hun hr0 (fun h => hf (by simp [h])) (fun h => hf (by simp [h])) (by simp) H.nodup hlt
      exact ⟨hlt, _, _, _, [], [r], rfl, hc, tmp_ok hc List.mem_cons_self true, rfl, List.Perm.refl _, hnumr _ _, hnum _ _, hout _ _, rfl, rfl, by simp⟩

/-! ### Release -/

theorem Dll.unlink {h h' : RegHeap} {r : Nat} {B : List Nat} : ∀ {A : List Nat} {pr p p' : Nat}, Dll h pr p (A ++ r :: B) → A.Nodup →
    (∀ a ∈ A, A.getLast? ≠ some a → h'.next a = h.next a) → (∀ x, A.getLast? = some x → h'.next x = h.next r) → (∀ b ∈ B, h'.next b = h.next b) →
    (∀ a ∈ A, h'.prev a = h.prev a) → (∀ b ∈ B, B.head? ≠ some b → h'.prev b = h.prev b) → (∀ b, B.head? = some b → h'.prev b = h.prev r) → B.Nodup →
    (p' = if A = [] then h.next r else p) → Dll h' pr p' (A ++ B) := by
  intro A
  induction A with
  | nil =>
    intro pr p p' hd _ _ _ h3 _ h5 h6 hB hp
    simp only [if_true] at hp
    obtain ⟨d1, d2, d3, d4⟩ := hd
    subst hp
    cases B with
    | nil => exact d4
    | cons b B =>
      obtain ⟨e1, e2, e3, e4⟩ := d4
      refine ⟨e1, e2, ?_, ?_⟩
      · rw [h6 b rfl, d3]
      · rw [h3 b List.mem_cons_self]
        refine e4.congr ?_
        intro x hx
        have hxb : x ≠ b := fun h => (List.nodup_cons.mp hB).1 (by rw [← h]; exact hx)
        exact ⟨h3 x (List.mem_cons_of_mem _ hx), h5 x (List.mem_cons_of_mem _ hx) (by simpa using fun h : b = x => hxb h.symm)⟩
  | cons a A ih =>
    intro pr p p' hd hnd h1 h2 h3 h4 h5 h6 hB hp
    rw [if_neg (by simp)] at hp
    subst hp
    obtain ⟨d1, d2, d3, d4⟩ := hd
    obtain ⟨hna, hnd⟩ := List.nodup_cons.mp hnd
    refine ⟨d1, d2, ?_, ?_⟩
    · rw [h4 a List.mem_cons_self]; exact d3
    · refine ih d4 hnd ?_ ?_ h3 (fun x hx => h4 x (List.mem_cons_of_mem _ hx)) h5 h6 hB ?_
      · intro x hx hl
        apply h1 x (List.mem_cons_of_mem _ hx)
        rw [getLast?_cons']
        intro h
        cases hA : A.getLast? with
        | none => rw [List.getLast?_eq_none_iff] at hA; rw [hA] at hx; cases hx
        | some y => rw [hA] at h hl; simp at h; exact hl (by rw [h])
      · intro x hx
        apply h2
        rw [getLast?_cons', hx]; rfl
      · cases A with
        | nil => rw [if_pos rfl]; exact h2 a (by simp)
        | cons c A =>
          rw [if_neg (by simp)]
          apply h1 a List.mem_cons_self
          rw [getLast?_cons']
          intro h
          have : ((c :: A).getLast?).getD a ∈ c :: A := by
            rw [getLast?_cons']
            simp only [Option.getD_some]
            cases hA : A.getLast? with
            | none => exact List.mem_cons_self
            | some r => exact List.mem_cons_of_mem _ (List.mem_of_getLast? hA)
          simp only [Option.some.injEq] at h
          rw [h] at this
          exact hna this

theorem Dll.at {h : RegHeap} {r : Nat} {B : List Nat} : ∀ {A : List Nat} {pr p : Nat}, Dll h pr p (A ++ r :: B) →
    h.prev r = A.getLast?.getD pr ∧ r ≠ 0 ∧ Dll h r (h.next r) B := by
  intro A
  induction A with
  | nil => intro pr p hd; exact ⟨hd.2.2.1, hd.2.1, hd.2.2.2⟩
  | cons a A ih =>
    intro pr p hd
    obtain ⟨i1, i2, i3⟩ := ih hd.2.2.2
    refine ⟨?_, i2, i3⟩
    rw [getLast?_cons', i1]; rfl

/-- The place of a register in the sorted list of free ones. -/
theorem findLink_spec {w : RegState} {r : Nat} : ∀ (fuel : Nat) (B A : List Nat), Sll w.h.next w.f.free (A ++ B) → B.length < fuel →
    (∀ a ∈ A, w.h.num a < w.h.num r) → (A ++ B).Pairwise (fun a b => w.h.num a < w.h.num b) →
    ∃ A' B', A ++ B = A' ++ B' ∧ findLink w r fuel A.getLast? = some A'.getLast? ∧ (∀ a ∈ A', w.h.num a < w.h.num r) ∧ (∀ b ∈ B', w.h.num r ≤ w.h.num b) := by
  intro fuel
  induction fuel with
  | zero => intro B A _ h; omega
  | succ fuel ih =>
    intro B A hs hlen hA hsort
    have hsp := hs.split
    unfold findLink
    rw [linkVal_deref]
    simp only []
    cases B with
    | nil =>
      have : linkVal w.h.next w.f.free A.getLast? = 0 := hsp
      rw [this, if_neg (by simp)]
      exact ⟨A, [], rfl, rfl, hA, by simp⟩
    | cons b B =>
      obtain ⟨s1, s2, s3⟩ := hsp
      rw [s1]
      by_cases hb : w.h.num r > w.h.num b
      · rw [if_pos ⟨s2, hb⟩]
        have := ih B (A ++ [b]) (by simpa using hs) (by simp only [List.length_cons] at hlen; omega)
          (by
            intro a ha
            rcases List.mem_append.mp ha with ha | ha
            · exact hA a ha
            · rcases List.mem_singleton.mp ha; exact hb)
          (by simpa using hsort)
        rw [List.getLast?_append] at this
        simpa using this
      · rw [if_neg (fun h => hb h.2)]
        refine ⟨A, b :: B, rfl, rfl, hA, ?_⟩
        intro x hx
        rcases List.mem_cons.mp hx with rfl | hx
        · omega
        · have := (List.pairwise_cons.mp (List.pairwise_append.mp hsort).2.1).1 x hx
          omega

theorem free_length {h : RegHeap} {f : RFrame} {F U : List Nat} (H : FrameOK h f F U) : F.length + U.length = f.numRegs := by
  have := H.nums.length_eq
  simpa using this

def h_next_r (w : RegState) (r : Nat) (B : List Nat) : Prop := w.h.next r = B.head?.getD 0

theorem freeReg_ok {w : RegState} {N F A B : List Nat} {r : Nat} (H : CurOK w N F (A ++ r :: B)) (ht : w.h.tmp r = true) :
    ∃ w' F', freeReg w r = some w' ∧ CurOK w' N F' (A ++ B) ∧ F'.Perm (r :: F) ∧ w'.h.num = w.h.num ∧ Outside (F ++ (A ++ r :: B)) w.h w'.h ∧
      w'.f.numRegs = w.f.numRegs ∧ w'.unused = w.unused ∧ w'.h.tmp = w.h.tmp := by
  have Hf := H.frame
  obtain ⟨a1, a2, a3⟩ := Hf.used.at
  have ndFU := Hf.nodup
  have ndU : (A ++ r :: B).Nodup := (List.nodup_append.mp ndFU).2.1
  have ndA : A.Nodup := (List.nodup_append.mp ndU).1
  have ndB : B.Nodup := (List.nodup_cons.mp (List.nodup_append.mp ndU).2.1).2
  have hrB : r ∉ B := (List.nodup_cons.mp (List.nodup_append.mp ndU).2.1).1
  have hAr : ∀ a ∈ A, a ≠ r := fun a ha => (List.nodup_append.mp ndU).2.2 a ha r List.mem_cons_self
  have hAB : ∀ a ∈ A, ∀ b ∈ B, a ≠ b := fun a ha b hb => (List.nodup_append.mp ndU).2.2 a ha b (List.mem_cons_of_mem _ hb)
  have hFU : ∀ a ∈ F, ∀ b ∈ A ++ r :: B, a ≠ b := (List.nodup_append.mp ndFU).2.2
  have hNo : ∀ a ∈ N, ∀ b ∈ F ++ (A ++ r :: B), a ≠ b := (List.nodup_append.mp H.nodup).2.2
  have hrF : r ∉ F := fun h => hFU r h r (by simp) rfl
  have ndF : F.Nodup := (List.nodup_append.mp ndFU).1
  have hA0 : ∀ x, A.getLast? = some x → x ≠ 0 := fun x hx => Hf.used.sll.ne_zero x (by simp [List.mem_of_getLast? hx])
  have hB0 : ∀ x, B.head? = some x → x ≠ 0 := fun x hx => Hf.used.sll.ne_zero x (by simp [List.mem_of_head? hx])
  have hnextr : h_next_r w r B := by
    unfold h_next_r
    cases B with
    | nil => exact a3
    | cons b B => exact a3.1
  unfold h_next_r at hnextr
  -- after unlinking
  generalize hw1 : (if w.h.prev r ≠ 0 then { w with h := { w.h with next := upd w.h.next (w.h.prev r) (w.h.next r) } }
      else { w with f := { w.f with used := w.h.next r } } : RegState) = w1
  have e1 : ∀ x, w1.h.next x = if A.getLast? = some x then w.h.next r else w.h.next x := by
    intro x
    rw [← hw1, a1]
    cases hA : A.getLast? with
    | none => simp
    | some y =>
      simp only [Option.getD_some]
      rw [if_pos (hA0 y hA)]
      simp only [upd]
      by_cases hxy : x = y
      · subst hxy; simp
      · rw [if_neg hxy, if_neg (fun h => hxy (by simpa using h.symm))]
  have e2 : w1.h.prev = w.h.prev := by rw [← hw1]; split <;> rfl
  have e3 : w1.h.num = w.h.num := by rw [← hw1]; split <;> rfl
  have e4 : w1.h.tmp = w.h.tmp := by rw [← hw1]; split <;> rfl
  have e5 : w1.f.used = if A = [] then w.h.next r else w.f.used := by
    rw [← hw1, a1]
    cases hA : A.getLast? with
    | none => rw [List.getLast?_eq_none_iff] at hA; simp [hA]
    | some y =>
      have : A ≠ [] := by intro h; rw [h] at hA; cases hA
      simp only [Option.getD_some]
      rw [if_pos (hA0 y hA), if_neg this]
  have e6 : w1.f.free = w.f.free := by rw [← hw1]; split <;> rfl
  have e7 : w1.f.numRegs = w.f.numRegs := by rw [← hw1]; split <;> rfl
  have e8 : w1.unused = w.unused := by rw [← hw1]; split <;> rfl
  have e9 : w1.h.next r = w.h.next r := by
    rw [e1, if_neg]
    intro h; exact hAr r (List.mem_of_getLast? h) rfl
  generalize hw2 : (if w1.h.next r ≠ 0 then { w1 with h := { w1.h with prev := upd w1.h.prev (w1.h.next r) (w1.h.prev r) } } else w1 : RegState) = w2
  have f1 : w2.h.next = w1.h.next := by rw [← hw2]; split <;> rfl
  have f2 : ∀ x, w2.h.prev x = if B.head? = some x then w.h.prev r else w.h.prev x := by
    intro x
    rw [← hw2, e9, hnextr]
    cases hB : B.head? with
    | none => simp [e2]
    | some y =>
      simp only [Option.getD_some]
      rw [if_pos (hB0 y hB)]
      simp only [upd, e2]
      by_cases hxy : x = y
      · subst hxy; simp
      · rw [if_neg hxy, if_neg (fun h => hxy (by simpa using h.symm))]
  have f3 : w2.h.num = w.h.num := by rw [← e3, ← hw2]; split <;> rfl
  have f4 : w2.h.tmp = w.h.tmp := by rw [← e4, ← hw2]; split <;> rfl
  have f5 : w2.f = w1.f := by rw [← hw2]; split <;> rfl
  have f8 : w2.unused = w.unused := by rw [← e8, ← hw2]; split <;> rfl
  have hnextF : ∀ x, x ∉ A → w2.h.next x = w.h.next x := by
    intro x hx
    rw [f1, e1, if_neg (fun h => hx (List.mem_of_getLast? h))]
  -- the used list
  have hused : Dll w2.h 0 w2.f.used (A ++ B) := by
    refine Dll.unlink Hf.used ndA ?_ ?_ ?_ ?_ ?_ ?_ ndB ?_
    · intro a _ hl; rw [f1, e1, if_neg hl]
    · intro x hx; rw [f1, e1, if_pos hx]
    · intro b hb; exact hnextF b (fun h => hAB b h b hb rfl)
    · intro a ha; rw [f2, if_neg (fun h => hAB a ha a (List.mem_of_head? h) rfl)]
    · intro b _ hl; rw [f2, if_neg hl]
    · intro b hb; rw [f2, if_pos hb]
    · rw [f5, e5]
  have hfreeL : Sll w2.h.next w2.f.free F := by
    rw [f5, e6]
    exact Hf.free.congr fun a ha => hnextF a (fun h => hFU a ha a (by simp [h]) rfl)
  have hsort2 : F.Pairwise (fun a b => w2.h.num a < w2.h.num b) := by rw [f3]; exact Hf.sorted
  have hlen := free_length Hf
  have hle := Hf.le
  obtain ⟨P, Q, hPQ, hfind, hP, hQ⟩ := findLink_spec (w := w2) (r := r) 256 F [] hfreeL (by omega) (by simp) hsort2
  rw [List.nil_append] at hPQ
  rw [show ([] : List Nat).getLast? = none from rfl] at hfind
  subst hPQ
  have hsplit := hfreeL.split
  have ndP : P.Nodup := (List.nodup_append.mp ndF).1
  have hPQne : ∀ a ∈ P, ∀ b ∈ Q, a ≠ b := (List.nodup_append.mp ndF).2.2
  have hrP : r ∉ P := fun h => hrF (by simp [h])
  have hrQ : r ∉ Q := fun h => hrF (by simp [h])
  have hdr : derefLink w2 P.getLast? = linkVal w2.h.next w2.f.free P.getLast? := linkVal_deref _ _
  have hdne : derefLink w2 P.getLast? ≠ r := by
    rw [hdr]
    cases Q with
    | nil => have : linkVal w2.h.next w2.f.free P.getLast? = 0 := hsplit; rw [this]; exact fun h => a2 h.symm
    | cons q Q => rw [hsplit.1]; intro h; exact hrQ (by rw [← h]; exact List.mem_cons_self)
  have hQlt : ∀ b ∈ Q, w.h.num r < w.h.num b := by
    intro b hb
    have h1 := hQ b hb
    rw [f3] at h1
    rcases Nat.lt_or_eq_of_le h1 with h | h
    · exact h
    · exfalso
      have hnn : (((P ++ Q) ++ (A ++ r :: B)).map w.h.num).Nodup := (Hf.nums.nodup_iff).mpr List.nodup_range
      rw [List.map_append] at hnn
      have := (List.nodup_append.mp hnn).2.2 (w.h.num b) (List.mem_map_of_mem (by simp [hb])) (w.h.num r) (List.mem_map_of_mem (by simp))
      exact this h.symm
  -- the result
  generalize hw3 : ({ w2 with h := { w2.h with next := upd w2.h.next r (derefLink w2 P.getLast?), prev := upd w2.h.prev r 0 } } : RegState) = w3
  have g1 : ∀ x, w3.h.next x = if x = r then derefLink w2 P.getLast? else w2.h.next x := by intro x; rw [← hw3]; rfl
  have g2 : ∀ x, w3.h.prev x = if x = r then 0 else w2.h.prev x := by intro x; rw [← hw3]; rfl
  have g3 : w3.h.num = w.h.num := by rw [← hw3]; exact f3
  have g4 : w3.h.tmp = w.h.tmp := by rw [← hw3]; exact f4
  have g5 : w3.f = w2.f := by rw [← hw3]
  have g8 : w3.unused = w.unused := by rw [← hw3]; exact f8
  have hres : freeReg w r = some (setLink w3 P.getLast? r) := by
    unfold freeReg
    rw [if_neg a2, if_pos ht]
    simp only [hw1, hw2, hfind]
    rw [if_neg hdne, hw3]
  have i1 : ∀ x, (setLink w3 P.getLast? r).h.next x = if P.getLast? = some x then r else if x = r then derefLink w2 P.getLast? else w2.h.next x := by
    intro x; rw [setLink_next, g1]
  have hPl : ∀ x, P.getLast? = some x → x ∈ P := fun x h => List.mem_of_getLast? h
  have hnum' : (setLink w3 P.getLast? r).h.num = w.h.num := by rw [setLink_num, g3]
  have hp1 : (P ++ r :: Q).Perm (r :: (P ++ Q)) := List.perm_middle
  have hp2 : ((P ++ r :: Q) ++ (A ++ B)).Perm ((P ++ Q) ++ (A ++ r :: B)) := by
    refine (hp1.append_right _).trans ?_
    rw [List.cons_append]
    have : ((P ++ Q) ++ (A ++ r :: B)).Perm (r :: ((P ++ Q) ++ (A ++ B))) := by
      refine (List.Perm.append_left _ List.perm_middle).trans ?_
      exact List.perm_middle
    exact this.symm
  refine ⟨setLink w3 P.getLast? r, P ++ r :: Q, hres, ⟨?_, ⟨?_, ?_, ?_, ?_, ?_, ?_, ?_⟩, ?_⟩, hp1, hnum', ?_, ?_, ?_, ?_⟩
  · rw [setLink_unused, g8]
    refine H.unused.congr ?_
    intro a ha
    rw [i1, if_neg (fun h => hNo a ha a (by simp [hPl a h]) rfl), if_neg (fun h => hNo a ha r (by simp) h)]
    exact hnextF a (fun h => hNo a ha a (by simp [h]) rfl)
  · refine Sll.relink hfreeL ndP (v := r) (B' := r :: Q) ?_ ?_ ?_ ?_
    · refine ⟨rfl, a2, ?_⟩
      rw [i1, if_neg (fun h => hrP (hPl r h)), if_pos rfl, hdr]
      refine hsplit.congr ?_
      intro b hb
      rw [i1, if_neg (fun h => hPQne b (hPl b h) b hb rfl), if_neg (fun h => hrQ (by rw [← h]; exact hb))]
    · intro a ha hl
      rw [i1, if_neg hl, if_neg (fun h => hrP (by rw [← h]; exact ha))]
    · intro x hx; rw [i1, if_pos hx]
    · rw [setLink_free, g5]; simp only [List.getLast?_eq_none_iff]
  · rw [setLink_used, g5]
    refine hused.congr ?_
    intro a ha
    have har : a ≠ r := by
      rcases List.mem_append.mp ha with h | h
      · exact hAr a h
      · intro h2; exact hrB (by rw [← h2]; exact h)
    have haP : a ∉ P := fun h => hFU a (by simp [h]) a (by rcases List.mem_append.mp ha with h | h <;> simp [h]) rfl
    rw [i1, if_neg (fun h => haP (hPl a h)), if_neg har, setLink_prev, g2, if_neg har]
    exact ⟨rfl, rfl⟩
  · exact hp2.nodup_iff.mpr ndFU
  · rw [hnum']
    obtain ⟨q1, q2, q3⟩ := List.pairwise_append.mp Hf.sorted
    refine List.pairwise_append.mpr ⟨q1, List.pairwise_cons.mpr ⟨hQlt, q2⟩, ?_⟩
    intro a ha b hb
    rcases List.mem_cons.mp hb with rfl | hb
    · have := hP a ha; rw [f3] at this; exact this
    · exact q3 a ha b hb
  · rw [hnum', setLink_numRegs, g5, f5, e7]
    exact (hp2.map w.h.num).trans Hf.nums
  · intro x hx
    rw [setLink_tmp, g4]
    rcases List.mem_append.mp hx with h | h
    · exact Hf.tmp x (by simp [h])
    · rcases List.mem_cons.mp h with rfl | h
      · exact ht
      · exact Hf.tmp x (by simp [h])
  · rw [setLink_numRegs, g5, f5, e7]; exact Hf.le
  · exact (List.Perm.append_left N hp2).nodup_iff.mpr H.nodup
  · intro x hx
    have hxP : x ∉ P := fun h => hx (by simp [h])
    have hxr : x ≠ r := fun h => hx (by simp [h])
    have hxA : x ∉ A := fun h => hx (by simp [h])
    have hxB : x ∉ B := fun h => hx (by simp [h])
    rw [i1, if_neg (fun h => hxP (hPl x h)), if_neg hxr, hnextF x hxA, setLink_prev, g2, if_neg hxr, f2, if_neg (fun h => hxB (List.mem_of_head? h)), hnum',
      setLink_tmp, g4]
    exact ⟨rfl, rfl, rfl, rfl⟩
  · rw [setLink_numRegs, g5, f5, e7]
  · rw [setLink_unused, g8]
  · rw [setLink_tmp, g4]

end Verif.Compiler
