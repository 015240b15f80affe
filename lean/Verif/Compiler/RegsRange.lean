import Verif.Compiler.RegsLemmas

/-! Allocation of single registers and of ranges, and the end of a frame (C35). -/
namespace Verif.Compiler

/-- An operation of the current frame: lists before and after; `c` are the objects taken from `ms`. -/
structure Adv (w w' : RegState) (N F U ms : List Nat) (N' F' U' : List Nat) : Prop where
  cur : CurOK w' N' F' U'
  keep : ∃ c rest, ms = c ++ rest ∧ (N' ++ (F' ++ U')).Perm (c ++ (N ++ (F ++ U)))
  out : Outside (ms ++ (N ++ (F ++ U))) w.h w'.h
  num : ∀ x ∈ F ++ U, w'.h.num x = w.h.num x
  tmp : ∀ x ∈ U, w'.h.tmp x = w.h.tmp x

theorem genNewReg_tmp (w : RegState) (ms : List Nat) : (genNewReg w ms).2.1.h.tmp = w.h.tmp := by
  unfold genNewReg
  split
  · rfl
  · split
    · rfl
    · split <;> rfl

theorem genReg_ok {w : RegState} {N F U ms : List Nat} (H : CurOK w N F U) (hms : ms.Nodup) (hms0 : 0 ∉ ms) (hfresh : ∀ m ∈ ms, m ∉ N ++ (F ++ U)) :
    (genReg w ms = (.tooMany, w, 0) ∧ F = [] ∧ w.f.numRegs = 255) ∨ (genReg w ms = (.oom, w, 0) ∧ ms = []) ∨
    ∃ w' r N' F', genReg w ms = (.ok, w', r) ∧ Adv w w' N F U ms N' F' (r :: U) ∧ r ≠ 0 ∧ r ∉ U ∧ w'.h.tmp r = true := by
  unfold genReg
  by_cases hf : w.f.free = 0
  · rw [if_pos hf]
    have hF : F = [] := by
      have := H.frame.free
      cases F with
      | nil => rfl
      | cons a F => exact absurd (this.1 ▸ hf) this.2.1
    subst hF
    rcases newReg_ok H hms hms0 hfresh with ⟨h1, h2⟩ | ⟨h1, h2, h3⟩ | ⟨h1, w1, ms1, r, N', c, h2, h3, h4, h5, h6, h7, h8, h9, h10, h11, h12⟩
    · left; rw [h2]; exact ⟨rfl, rfl, h1⟩
    · right; left; rw [h3]; exact ⟨rfl, h2⟩
    · right; right
      rw [h2]
      simp only []
      have hr0 : r ≠ 0 := h3.frame.used.2.1
      have hne : w1.f.free ≠ r := by rw [h11, hf]; exact fun h => hr0 h.symm
      rw [if_neg hne]
      have hndU := (List.nodup_append.mp h3.frame.nodup).2.1
      have hrU := (List.nodup_cons.mp hndU).1
      have hrin : r ∈ ms ++ (N ++ ([] ++ U)) := by
        have : r ∈ N ++ c := h6.mem_iff.mpr List.mem_cons_self
        rw [h5]
        rcases List.mem_append.mp this with h | h
        · simp [h]
        · simp [h]
      refine ⟨_, r, N', [], rfl, ⟨h4, ⟨c, ms1, h5, ?_⟩, ?_, ?_, ?_⟩, hr0, hrU, by simp [upd]⟩
      · simp only [List.nil_append]
        refine List.perm_middle.trans ?_
        rw [← List.cons_append, ← List.append_assoc]
        exact (h6.symm.trans List.perm_append_comm).append_right U
      · intro x hx
        have hxr : x ≠ r := fun h => hx (by rw [h]; exact hrin)
        have hxU : x ∉ r :: U := by
          intro h
          rcases List.mem_cons.mp h with h | h
          · exact hxr h
          · exact hx (by simp [h])
        obtain ⟨o1, o2, o3, o4⟩ := h9 x hxU
        refine ⟨o1, o2, o3, ?_⟩
        simp only [upd]; rw [if_neg hxr]; exact o4
      · intro x hx
        exact h8 x (fun h => hrU (by rw [← h]; simpa using hx))
      · intro x hx
        have ht := genNewReg_tmp w ms
        rw [h2] at ht
        show upd (markRegAsUsed w1 r).h.tmp r true x = w.h.tmp x
        simp only [upd]; rw [if_neg (fun h => hrU (by rw [← h]; exact hx)), mark_tmp]
        exact congrFun ht x
  · right; right
    rw [if_neg hf]
    simp only [if_true]
    have hfr := H.frame.free
    cases F with
    | nil => exact absurd hfr hf
    | cons r F =>
      have e : w.f.free = r := hfr.1
      obtain ⟨t1, t2, t3, t4, t5, t6⟩ := take_ok (A := []) (B := F) (r := r) H
      have hstate : markRegAsUsed { w with f := { w.f with free := w.h.next w.f.free } } w.f.free =
          setLink (markRegAsUsed w r) ([] : List Nat).getLast? (w.h.next r) := by
        rw [e]; rfl
      rw [hstate]
      have hndU := (List.nodup_append.mp t1.frame.nodup).2.1
      have hrU := (List.nodup_cons.mp hndU).1
      refine ⟨_, w.f.free, N, F, rfl, ⟨?_, ⟨[], ms, rfl, ?_⟩, ?_, ?_, ?_⟩, hf, by rw [e]; exact hrU, by simp [upd]⟩
      · rw [e]; exact tmp_ok t1 List.mem_cons_self true
      · rw [e, List.nil_append]
        exact List.Perm.append_left N List.perm_middle
      · intro x hx
        obtain ⟨o1, o2, o3, o4⟩ := t2 x (fun h => hx (by
          rcases List.mem_append.mp h with h | h
          · simp at h; rcases h with h | h <;> simp [h]
          · simp [h]))
        refine ⟨o1, o2, o3, ?_⟩
        simp only [upd, e]
        rw [if_neg (fun h => hx (by simp [h]))]; exact o4
      · intro x _
        show (setLink (markRegAsUsed w r) ([] : List Nat).getLast? (w.h.next r)).h.num x = w.h.num x
        rw [t3]
      · intro x hx
        simp only [upd, e]
        rw [if_neg (fun h => hrU (by rw [← h]; exact hx)), t6]

/-! ### Ranges -/

theorem takeFree_ok {N B : List Nat} : ∀ (R : List Nat) (w : RegState) (A U : List Nat), CurOK w N (A ++ (R ++ B)) U →
    ∃ w', takeFree R.length w A.getLast? (linkVal w.h.next w.f.free A.getLast?) = some (w', R) ∧ CurOK w' N (A ++ B) (R.reverse ++ U) ∧
      Outside (A ++ (R ++ B) ++ U) w.h w'.h ∧ w'.h.num = w.h.num ∧ w'.f.numRegs = w.f.numRegs ∧ w'.h.tmp = w.h.tmp := by
  intro R
  induction R with
  | nil => intro w A U H; exact ⟨w, rfl, H, Outside.refl _ _, rfl, rfl, rfl⟩
  | cons r R ih =>
    intro w A U H
    rw [List.cons_append] at H
    obtain ⟨t1, t2, t3, t4, t5, t6⟩ := take_ok H
    have hs := H.frame.free.split
    obtain ⟨s1, s2, s3⟩ := hs
    generalize hw1 : setLink (markRegAsUsed w r) A.getLast? (w.h.next r) = w1 at *
    obtain ⟨w', i1, i2, i3, i4, i5, i6⟩ := ih w1 A (r :: U) t1
    rw [t4] at i1
    refine ⟨w', ?_, by simpa using i2, ?_, i4.trans t3, i5.trans t5, i6.trans t6⟩
    · rw [s1]
      show takeFree (R.length + 1) w A.getLast? r = _
      unfold takeFree
      rw [if_neg s2]
      simp only [hw1, i1]
    · refine t2.trans (i3.mono ?_) |>.mono ?_
      · intro x hx
        simp only [List.mem_append, List.mem_cons] at hx ⊢
        grind
      · intro x hx; simpa using hx

theorem addRegs_ok {F : List Nat} : ∀ (n : Nat) (w : RegState) (ms N U : List Nat), CurOK w N F U → ms.Nodup → 0 ∉ ms → (∀ m ∈ ms, m ∉ N ++ (F ++ U)) →
    ∃ e w' out N', addRegs n w ms = (e, w', out) ∧ Adv w w' N F U ms N' F (out.reverse ++ U) ∧
      out.map w'.h.num = List.range' w.f.numRegs out.length ∧ w'.f.numRegs = w.f.numRegs + out.length ∧
      (e = .ok → out.length = n) ∧ (e = .tooMany → w'.f.numRegs = 255 ∧ out.length < n) ∧ (∀ x ∈ out, w'.h.tmp x = true) ∧
      (e = .oom → ms.length < n) := by
  intro n
  induction n with
  | zero =>
    intro w ms N U H _ _ _
    refine ⟨.ok, w, [], N, rfl, ⟨H, ⟨[], ms, rfl, List.Perm.refl _⟩, Outside.refl _ _, fun _ _ => rfl, fun _ _ => rfl⟩, rfl, rfl, fun _ => rfl, fun h => (by cases h), by simp, fun h => (by cases h)⟩
  | succ n ih =>
    intro w ms N U H hms hms0 hfresh
    unfold addRegs
    rcases newReg_ok H hms hms0 hfresh with ⟨h1, h2⟩ | ⟨h1, h2, h3⟩ | ⟨h1, w1, ms1, r, N1, c, h2, h3, h4, h5, h6, h7, h8, h9, h10, h11, h12⟩
    · rw [h2]
      refine ⟨.tooMany, w, [], N, rfl, ⟨H, ⟨[], ms, rfl, List.Perm.refl _⟩, Outside.refl _ _, fun _ _ => rfl, fun _ _ => rfl⟩, rfl, rfl, fun h => (by cases h), fun _ => ⟨h1, by simp⟩, by simp, fun h => (by cases h)⟩
    · rw [h3]
      refine ⟨.oom, w, [], N, rfl, ⟨H, ⟨[], ms, rfl, List.Perm.refl _⟩, Outside.refl _ _, fun _ _ => rfl, fun _ _ => rfl⟩, rfl, rfl, fun h => (by cases h), fun h => (by cases h), by simp, fun _ => (by rw [h2]; simp)⟩
    · rw [h2]
      simp only []
      generalize hw2 : ({ markRegAsUsed w1 r with h := { (markRegAsUsed w1 r).h with tmp := upd (markRegAsUsed w1 r).h.tmp r true } } : RegState) = w2 at *
      have e1 : w2.h.num = (markRegAsUsed w1 r).h.num := by rw [← hw2]
      have e2 : w2.f.numRegs = w.f.numRegs + 1 := by rw [← hw2]; exact h10
      rw [h5] at hms hms0 hfresh
      obtain ⟨m1, m2, m3⟩ := List.nodup_append.mp hms
      have hmem : ∀ x, x ∈ N1 ++ (F ++ r :: U) → x ∈ c ++ (N ++ (F ++ U)) := by
        intro x hx
        have hx2 : x ∈ r :: N1 ∨ x ∈ F ++ U := by
          simp only [List.mem_append, List.mem_cons] at hx ⊢
          grind
        rcases hx2 with h | h
        · have := h6.mem_iff.mpr h
          simp only [List.mem_append] at this ⊢
          grind
        · simp only [List.mem_append] at h ⊢
          grind
      have hfresh1 : ∀ m ∈ ms1, m ∉ N1 ++ (F ++ r :: U) := by
        intro m hm hx
        rcases List.mem_append.mp (hmem m hx) with h | h
        · exact m3 m h m hm rfl
        · exact hfresh m (by simp [hm]) h
      obtain ⟨e, w', out, N', i1, i2, i3, i4, i5, i6, i7, i8⟩ := ih w2 ms1 N1 (r :: U) h4 m2 (fun h => hms0 (by simp [h])) hfresh1
      rw [i1]
      have hndU := (List.nodup_append.mp h3.frame.nodup).2.1
      have hrU := (List.nodup_cons.mp hndU).1
      have hndFU := h3.frame.nodup
      have hrF : r ∉ F := fun h => (List.nodup_append.mp hndFU).2.2 r h r List.mem_cons_self rfl
      have hrnum : w'.h.num r = w.f.numRegs := by
        rw [i2.num r (by simp), e1, h7]
      have hrin : r ∈ ms ++ (N ++ (F ++ U)) := by
        have : r ∈ N ++ c := h6.mem_iff.mpr List.mem_cons_self
        rw [h5]
        simp only [List.mem_append] at this ⊢
        grind
      have hout2 : Outside (ms ++ (N ++ (F ++ U))) w.h w2.h := by
        intro x hx
        have hxr : x ≠ r := fun h => hx (by rw [h]; exact hrin)
        have hxU : x ∉ r :: U := by
          intro h
          rcases List.mem_cons.mp h with h | h
          · exact hxr h
          · exact hx (by simp [h])
        obtain ⟨o1, o2, o3, o4⟩ := h9 x hxU
        rw [← hw2]
        refine ⟨o1, o2, o3, ?_⟩
        simp only [upd]; rw [if_neg hxr]; exact o4
      refine ⟨e, w', r :: out, N', rfl, ⟨by simpa using i2.cur, ?_, ?_, ?_, ?_⟩, ?_, ?_, ?_, ?_, ?_, ?_⟩
      · obtain ⟨c2, rest, k1, k2⟩ := i2.keep
        refine ⟨c ++ c2, rest, by rw [h5, k1]; simp, ?_⟩
        have : (N' ++ (F ++ ((r :: out).reverse ++ U))) = N' ++ (F ++ (out.reverse ++ r :: U)) := by simp
        rw [this]
        refine k2.trans ?_
        have q : (N1 ++ (F ++ r :: U)).Perm (c ++ (N ++ (F ++ U))) := by
          refine (List.Perm.append_left N1 List.perm_middle).trans ?_
          refine List.perm_middle.trans ?_
          rw [← List.cons_append, ← List.append_assoc c]
          exact (h6.symm.trans List.perm_append_comm).append_right (F ++ U)
        refine (List.Perm.append_left c2 q).trans ?_
        rw [List.append_assoc, ← List.append_assoc c2, ← List.append_assoc c]
        exact List.perm_append_comm.append_right _
      · refine hout2.trans (i2.out.mono ?_)
        intro x hx
        rcases List.mem_append.mp hx with h | h
        · rw [h5]; simp [h]
        · have := hmem x h
          rw [h5]
          simp only [List.mem_append] at this ⊢
          grind
      · intro x hx
        have hxr : x ≠ r := by
          intro h; rw [h] at hx
          rcases List.mem_append.mp hx with h | h
          · exact hrF h
          · exact hrU h
        rw [i2.num x (by simp only [List.mem_append, List.mem_cons] at hx ⊢; grind), e1, h8 x hxr]
      · intro x hx
        rw [i2.tmp x (List.mem_cons_of_mem _ hx), ← hw2]
        have ht := genNewReg_tmp w ms
        rw [h2] at ht
        simp only [upd]; rw [if_neg (fun h => hrU (by rw [← h]; exact hx)), mark_tmp]
        exact congrFun ht x
      · rw [List.map_cons, i3, hrnum, e2, List.length_cons, List.range'_succ]
      · rw [i4, e2, List.length_cons]; omega
      · intro h; rw [List.length_cons, i5 h]
      · intro h; obtain ⟨j1, j2⟩ := i6 h; exact ⟨j1, by rw [List.length_cons]; omega⟩
      · intro x hx
        rcases List.mem_cons.mp hx with rfl | hx
        · rw [i2.tmp _ List.mem_cons_self, ← hw2]; simp [upd]
        · exact i7 x hx
      · intro h
        have := i8 h
        rw [h5, List.length_append]; omega

/-- Numbers of free registers. -/
theorem nums_nodup {h : RegHeap} {f : RFrame} {F U : List Nat} (H : FrameOK h f F U) : (F.map h.num ++ U.map h.num).Nodup := by
  rw [← List.map_append]
  exact (H.nums.nodup_iff).mpr List.nodup_range

/-- The search for consecutive free registers finds the first run of `n`, or ends with the last run. -/
theorem scanFree_spec {h : RegHeap} {n : Nat} (hn : 1 < n) : ∀ (fuel : Nat) (B A R : List Nat) (reg p : Nat), Sll h.next p (A ++ (R ++ reg :: B)) → B.length < fuel →
    (A ++ (R ++ reg :: B)).Pairwise (fun a b => h.num a < h.num b) → R.length + 1 < n →
    ((R ++ [reg]).map h.num = List.range' (h.num reg - R.length) (R.length + 1)) → R.length ≤ h.num reg →
    (∀ a ∈ A ++ (R ++ reg :: B), h.num a + 1 ≠ h.num reg - R.length) →
    (∀ k, (∀ i, i < n → k + i ∈ (A ++ (R ++ reg :: B)).map h.num) → h.num reg < k + n - 1) →
    ∃ A' R' B', A ++ (R ++ reg :: B) = A' ++ (R' ++ B') ∧ scanFree h n fuel A.getLast? reg (R.length + 1) = some (A'.getLast?, R'.length) ∧
      (∃ k, R'.map h.num = List.range' k R'.length) ∧ R' ≠ [] ∧
      (R'.length = n ∨ (R'.length < n ∧ B' = [] ∧ (∀ k, ¬ ∀ i, i < n → k + i ∈ (A ++ (R ++ reg :: B)).map h.num) ∧
        ∀ r0, R'.head? = some r0 → ∀ a ∈ A ++ (R ++ reg :: B), h.num a + 1 ≠ h.num r0)) := by
  intro fuel
  induction fuel with
  | zero => intro B A R reg p _ h; omega
  | succ fuel ih =>
    intro B A R reg p hs hlen hsort hRn hcons hRle hgap hrun
    have hs2 : Sll h.next p ((A ++ (R ++ [reg])) ++ B) := by simpa using hs
    have hsp := hs2.split
    have hl : (A ++ (R ++ [reg])).getLast? = some reg := by simp [List.getLast?_append]
    rw [hl] at hsp
    simp only [linkVal] at hsp
    unfold scanFree
    simp only []
    cases B with
    | nil =>
      have h0 : h.next reg = 0 := hsp
      rw [if_pos h0]
      refine ⟨A, R ++ [reg], [], by simp, by simp, ⟨h.num reg - R.length, by rw [hcons]; simp⟩, by simp, Or.inr ⟨by simpa using hRn, rfl, ?_, ?_⟩⟩
      · intro k hk
        have h1 := hrun k hk
        have h2 := hk (n - 1) (by omega)
        obtain ⟨a, ha, hae⟩ := List.mem_map.mp h2
        have hle : h.num a ≤ h.num reg := by
          have hp2 : (A ++ R ++ [reg]).Pairwise (fun a b => h.num a < h.num b) := by simpa using hsort
          rcases List.mem_append.mp (show a ∈ (A ++ R) ++ [reg] by simpa using ha) with h | h
          · exact Nat.le_of_lt ((List.pairwise_append.mp hp2).2.2 a h reg (by simp))
          · rcases List.mem_singleton.mp h; exact Nat.le_refl _
        omega
      · intro r0 hr0 a ha
        have : h.num r0 = h.num reg - R.length := by
          have h3 := congrArg List.head? hcons
          rw [List.head?_map, hr0] at h3
          simpa [List.range'_succ] using h3
        rw [this]; exact hgap a ha
    | cons b B =>
      obtain ⟨s1, s2, s3⟩ := hsp
      rw [s1, if_neg s2]
      have hsort2 : ((A ++ (R ++ [reg])) ++ b :: B).Pairwise (fun a b => h.num a < h.num b) := by simpa using hsort
      obtain ⟨q1, q2, q3⟩ := List.pairwise_append.mp hsort2
      have hpre : ∀ a ∈ A ++ (R ++ [reg]), h.num a ≤ h.num reg := by
        intro a ha
        have q1' : ((A ++ R) ++ [reg]).Pairwise (fun a b => h.num a < h.num b) := by simpa using q1
        rcases List.mem_append.mp (show a ∈ (A ++ R) ++ [reg] by simpa using ha) with h | h
        · exact Nat.le_of_lt ((List.pairwise_append.mp q1').2.2 a h reg (by simp))
        · rcases List.mem_singleton.mp h; exact Nat.le_refl _
      have hpost : ∀ a ∈ b :: B, h.num b ≤ h.num a := by
        intro a ha
        rcases List.mem_cons.mp ha with rfl | ha
        · exact Nat.le_refl _
        · exact Nat.le_of_lt ((List.pairwise_cons.mp q2).1 a ha)
      have hrb : h.num reg < h.num b := q3 reg (by simp) b List.mem_cons_self
      have hcase : ∀ a ∈ A ++ (R ++ reg :: b :: B), h.num a ≤ h.num reg ∨ h.num b ≤ h.num a := by
        intro a ha
        rcases List.mem_append.mp (show a ∈ (A ++ (R ++ [reg])) ++ b :: B by simpa using ha) with h | h
        · exact Or.inl (hpre a h)
        · exact Or.inr (hpost a h)
      have hcaseN : ∀ x ∈ (A ++ (R ++ reg :: b :: B)).map h.num, x ≤ h.num reg ∨ h.num b ≤ x := by
        intro x hx
        obtain ⟨a, ha, rfl⟩ := List.mem_map.mp hx
        exact hcase a ha
      by_cases hb : h.num b = h.num reg + 1
      · rw [if_pos hb]
        have hcons' : ((R ++ [reg]) ++ [b]).map h.num = List.range' (h.num reg - R.length) (R.length + 1 + 1) := by
          have hb2 : h.num b = h.num reg - R.length + 1 * (R.length + 1) := by omega
          have e := List.range'_concat (step := 1) (s := h.num reg - R.length) (n := R.length + 1)
          rw [e, List.map_append, hcons, List.map_cons, List.map_nil, hb2]
        by_cases hc : R.length + 1 + 1 = n
        · rw [if_pos hc]
          refine ⟨A, R ++ [reg] ++ [b], B, by simp, ?_, ⟨h.num reg - R.length, by rw [hcons']; simp⟩, by simp, Or.inl (by simpa using hc)⟩
          simp
        · rw [if_neg hc]
          have := ih B A (R ++ [reg]) b p (by simpa using hs) (by simp only [List.length_cons] at hlen; omega) (by simpa using hsort) (by simp; omega)
            (by rw [hcons']; simp only [List.length_append, List.length_singleton]; congr 1; omega) (by simp; omega)
            (by
              intro a ha
              have := hgap a (by simpa using ha)
              simp only [List.length_append, List.length_singleton]; omega)
            (by
              intro k hk
              have hk' : ∀ i, i < n → k + i ∈ (A ++ (R ++ reg :: b :: B)).map h.num := by
                intro i hi; have := hk i hi; simpa using this
              have h1 := hrun k hk'
              rcases Nat.lt_or_ge (h.num b) (k + n - 1) with h2 | h2
              · exact h2
              · exfalso
                -- the run would contain the number before the current run
                have hst : h.num reg - R.length - 1 ∈ (A ++ (R ++ reg :: b :: B)).map h.num := by
                  have := hk' (h.num reg - R.length - 1 - k) (by omega)
                  rw [show k + (h.num reg - R.length - 1 - k) = h.num reg - R.length - 1 by omega] at this
                  exact this
                obtain ⟨a, ha, hae⟩ := List.mem_map.mp hst
                have := hgap a ha
                have hk0 := hk' 0 (by omega)
                omega)
          simpa using this
      · rw [if_neg hb]
        have := ih B (A ++ (R ++ [reg])) [] b p (by simpa using hs) (by simp only [List.length_cons] at hlen; omega) (by simpa using hsort) (by simpa using hn)
            (by simp) (by simp)
            (by
              intro a ha
              have h1 := hcase a (by simpa using ha)
              simp only [List.length_nil]; omega)
            (by
              intro k hk
              have hk' : ∀ i, i < n → k + i ∈ (A ++ (R ++ reg :: b :: B)).map h.num := by
                intro i hi; have := hk i hi; simpa using this
              have h1 := hrun k hk'
              rcases Nat.lt_or_ge (h.num b) (k + n - 1) with h2 | h2
              · exact h2
              · exfalso
                have h3 := hcaseN _ (hk' (n - 1) (by omega))
                have h4 := hcaseN _ (hk' (n - 2) (by omega))
                omega)
        rw [hl] at this
        simpa using this

/-- `gen_reg_range` -/
theorem genRegRange_ok {w : RegState} {N F U ms : List Nat} {n : Nat} (hn : 1 < n) (H : CurOK w N F U) (hms : ms.Nodup) (hms0 : 0 ∉ ms)
    (hfresh : ∀ m ∈ ms, m ∉ N ++ (F ++ U)) :
    ∃ e w' out N' F', genRegRange w ms n = some (e, w', out) ∧ Adv w w' N F U ms N' F' (out.reverse ++ U) ∧
      (∃ k, out.map w'.h.num = List.range' k out.length) ∧ (e = .ok → out.length = n) ∧ (∀ x ∈ out, w'.h.tmp x = true) ∧
      (e = .tooMany → ∀ k, k + n ≤ 255 → ∃ i, i < n ∧ k + i ∈ U.map w.h.num) ∧ (e = .oom → ms.length < n) := by
  have Hf := H.frame
  have hlen := free_length Hf
  have hle := Hf.le
  have hnd := nums_nodup Hf
  have hall : ∀ x, x < w.f.numRegs ↔ x ∈ F.map w.h.num ∨ x ∈ U.map w.h.num := by
    intro x
    have := Hf.nums.mem_iff (a := x)
    rw [List.map_append, List.mem_append, List.mem_range] at this
    exact this.symm
  -- new registers only
  have hnew : (∀ k, ¬ ∀ i, i < n → k + i ∈ F.map w.h.num) → (∀ a ∈ F, w.h.num a + 1 ≠ w.f.numRegs) →
      ∃ e w' out N' F', some (addRegs n w ms) = some (e, w', out) ∧ Adv w w' N F U ms N' F' (out.reverse ++ U) ∧
      (∃ k, out.map w'.h.num = List.range' k out.length) ∧ (e = .ok → out.length = n) ∧ (∀ x ∈ out, w'.h.tmp x = true) ∧
      (e = .tooMany → ∀ k, k + n ≤ 255 → ∃ i, i < n ∧ k + i ∈ U.map w.h.num) ∧ (e = .oom → ms.length < n) := by
    intro hrun hlast
    obtain ⟨e, w', out, N', i1, i2, i3, i4, i5, i6, i7, i8⟩ := addRegs_ok n w ms N U H hms hms0 hfresh
    refine ⟨e, w', out, N', F, by rw [i1], i2, ⟨_, i3⟩, i5, i7, ?_, i8⟩
    intro he k hk
    obtain ⟨j1, j2⟩ := i6 he
    by_cases hkn : k + n ≤ w.f.numRegs
    · -- one of them is not free
      have : ∃ i, i < n ∧ k + i ∉ F.map w.h.num := by
        apply Classical.byContradiction
        intro hno
        exact hrun k fun i hi => Classical.byContradiction fun h => hno ⟨i, hi, h⟩
      obtain ⟨i, hi, hiF⟩ := this
      exact ⟨i, hi, ((hall (k + i)).mp (by omega)).resolve_left hiF⟩
    · -- the range has the last register
      have hk2 : k < w.f.numRegs := by omega
      refine ⟨w.f.numRegs - 1 - k, by omega, ?_⟩
      rw [show k + (w.f.numRegs - 1 - k) = w.f.numRegs - 1 by omega]
      refine ((hall _).mp (by omega)).resolve_left ?_
      intro h
      obtain ⟨a, ha, hae⟩ := List.mem_map.mp h
      exact hlast a ha (by omega)
  unfold genRegRange
  simp only []
  by_cases hf : w.f.free ≠ 0
  · rw [if_pos hf]
    have hfr := Hf.free
    have hne : ∃ reg B, F = reg :: B := by
      cases F with
      | nil => exact absurd hfr hf
      | cons reg B => exact ⟨reg, B, rfl⟩
    obtain ⟨reg, B, hF⟩ := hne
    · rw [hF] at hfr
      have e : w.f.free = reg := hfr.1
      have hsort := Hf.sorted
      rw [hF] at hsort
      have hmin : ∀ a ∈ reg :: B, w.h.num reg ≤ w.h.num a := by
        intro a ha
        rcases List.mem_cons.mp ha with rfl | ha
        · exact Nat.le_refl _
        · exact Nat.le_of_lt ((List.pairwise_cons.mp hsort).1 a ha)
      have hBlen : B.length < 256 := by rw [hF, List.length_cons] at hlen; omega
      obtain ⟨A', R', B', k1, k2, ⟨k, k3⟩, k4, k5⟩ := scanFree_spec (h := w.h) hn 256 B [] [] reg w.f.free (by simpa using hfr) hBlen (by simpa using hsort) (by simpa using hn)
        (by simp) (by simp)
        (by
          intro a ha
          have := hmin a (by simpa using ha)
          simp only [List.length_nil]; omega)
        (by
          intro k hk
          have h1 := hk 0 (by omega)
          obtain ⟨a, ha, hae⟩ := List.mem_map.mp h1
          have := hmin a (by simpa using ha)
          omega)
      simp only [List.nil_append, List.getLast?_nil, List.length_nil, Nat.zero_add] at k1 k2 k5
      rw [e, k2]
      simp only []
      have hc0 : R'.length ≠ 0 := fun h => k4 (List.length_eq_zero_iff.mp h)
      have hFe : F = A' ++ (R' ++ B') := hF.trans k1
      have hsp := (hFe ▸ Hf.free).split
      have hdr : derefLink w A'.getLast? = linkVal w.h.next w.f.free A'.getLast? := linkVal_deref _ _
      obtain ⟨r0, R0, hR0⟩ := List.exists_cons_of_ne_nil k4
      have hd0 : derefLink w A'.getLast? = r0 := by
        rw [hdr]; rw [hR0] at hsp; exact hsp.1
      have hk0 : w.h.num r0 = k := by
        rw [hR0] at k3
        simp only [List.map_cons, List.length_cons, List.range'_succ] at k3
        exact (List.cons.inj k3).1
      have H2 : CurOK w N (A' ++ (R' ++ B')) U := hFe ▸ H
      have hRmem : ∀ x ∈ R', k ≤ w.h.num x ∧ w.h.num x < k + R'.length := by
        intro x hx
        have : w.h.num x ∈ R'.map w.h.num := List.mem_map_of_mem hx
        rw [k3, List.mem_range'_1] at this
        exact this
      have hRn : ∀ x, k ≤ x → x < k + R'.length → x ∈ F.map w.h.num := by
        intro x h1 h2
        have : x ∈ R'.map w.h.num := by rw [k3, List.mem_range'_1]; exact ⟨h1, h2⟩
        rw [hFe, List.map_append, List.map_append]
        simp [this]
      by_cases hcond : R'.length = n ∨ (R'.length ≠ 0 ∧ w.h.num (derefLink w A'.getLast?) + R'.length = w.f.numRegs)
      · rw [if_pos hcond]
        obtain ⟨w1, t1, t2, t3, t4, t5, t6⟩ := takeFree_ok R' w A' U H2
        rw [hdr, t1]
        simp only []
        have hfresh1 : ∀ m ∈ ms, m ∉ N ++ ((A' ++ B') ++ (R'.reverse ++ U)) := by
          intro m hm h
          refine hfresh m hm ?_
          rw [hFe]
          simp only [List.mem_append, List.mem_reverse] at h ⊢
          grind
        obtain ⟨e', w', out, N', i1, i2, i3, i4, i5, i6, i7, i8⟩ := addRegs_ok (n - R'.length) w1 ms N (R'.reverse ++ U) t2 hms hms0 hfresh1
        rw [i1]
        have hnumR : R'.map w'.h.num = R'.map w.h.num := by
          refine List.map_congr_left ?_
          intro x hx
          rw [i2.num x (by simp [hx]), t4]
        refine ⟨e', w', R' ++ out, N', A' ++ B', rfl, ⟨?_, ?_, ?_, ?_, ?_⟩, ⟨k, ?_⟩, ?_, ?_, ?_, fun h => by have := i8 h; omega⟩
        · have := i2.cur; simpa using this
        · obtain ⟨c, rest, c1, c2⟩ := i2.keep
          refine ⟨c, rest, c1, ?_⟩
          have p1 : (N' ++ ((A' ++ B') ++ ((R' ++ out).reverse ++ U))) = N' ++ ((A' ++ B') ++ (out.reverse ++ (R'.reverse ++ U))) := by simp
          rw [p1]
          refine c2.trans (List.Perm.append_left c (List.Perm.append_left N ?_))
          rw [hFe]
          have p2 : ((A' ++ B') ++ (R'.reverse ++ U)).Perm ((A' ++ B') ++ (R' ++ U)) := List.Perm.append_left _ ((List.reverse_perm R').append_right U)
          refine p2.trans ?_
          have p3 : (B' ++ R').Perm (R' ++ B') := List.perm_append_comm
          have p4 := List.Perm.append_left A' (p3.append_right U)
          simpa using p4
        · refine (t3.mono ?_).trans (i2.out.mono ?_)
          · intro x hx
            rw [hFe]
            simp only [List.mem_append] at hx ⊢
            grind
          · intro x hx
            rw [hFe]
            simp only [List.mem_append, List.mem_reverse] at hx ⊢
            grind
        · intro x hx
          rw [hFe] at hx
          rw [← t4]
          by_cases hxR : x ∈ R'
          · exact i2.num x (by simp [hxR])
          · exact i2.num x (by simp only [List.mem_append] at hx ⊢; grind)
        · intro x hx
          rw [i2.tmp x (by simp [hx]), t6]
        · rw [List.map_append, hnumR, k3, i3, t5]
          rcases hcond with hc | hc
          · have : out.length = 0 := by
              cases e' with
              | ok => have := i5 rfl; omega
              | tooMany => have := (i6 rfl).2; omega
              | oom =>
                rw [show n - R'.length = 0 by omega] at i1
                simp [addRegs] at i1
            rw [this]
            have hnil : out = [] := List.length_eq_zero_iff.mp this
            rw [hnil]; simp
          · rw [hd0, hk0] at hc
            rw [← hc.2, List.length_append, ← List.range'_append_1]
        · intro he
          rw [List.length_append, i5 he]
          rcases k5 with h | h <;> omega
        · intro x hx
          rcases List.mem_append.mp hx with h | h
          · rw [i2.tmp x (by simp [h]), t6]
            exact Hf.tmp x (by rw [hFe]; simp [h])
          · exact i7 x h
        · intro he k' hk'
          obtain ⟨j1, j2⟩ := i6 he
          rcases k5 with h | ⟨h1, h2, h3, h4⟩
          · omega
          · rcases hcond with hc | ⟨_, hc⟩
            · omega
            · rw [hd0, hk0] at hc
              by_cases hkn : k' + n ≤ w.f.numRegs
              · have : ∃ i, i < n ∧ k' + i ∉ F.map w.h.num := by
                  apply Classical.byContradiction
                  intro hno
                  refine h3 k' fun i hi => Classical.byContradiction fun h => hno ⟨i, hi, ?_⟩
                  rw [hF]; exact h
                obtain ⟨i, hi, hiF⟩ := this
                exact ⟨i, hi, ((hall (k' + i)).mp (by omega)).resolve_left hiF⟩
              · -- the register before the last run is used
                have hk'k : k' + 1 ≤ k := by omega
                refine ⟨k - 1 - k', by omega, ?_⟩
                rw [show k' + (k - 1 - k') = k - 1 by omega]
                refine ((hall _).mp (by omega)).resolve_left ?_
                intro h
                obtain ⟨a, ha, hae⟩ := List.mem_map.mp h
                exact h4 r0 (by rw [hR0]; rfl) a (by rw [← hF]; exact ha) (by omega)
      · rw [if_neg hcond]
        rcases k5 with h | ⟨h1, h2, h3, h4⟩
        · exact absurd (Or.inl h) hcond
        · have := hnew (by rw [hF]; exact h3) (by
            intro a ha hae
            apply hcond
            right
            refine ⟨hc0, ?_⟩
            rw [hd0, hk0]
            -- the last free register is in the last run
            rw [hFe, h2, List.append_nil] at ha
            have hsF := Hf.sorted
            rw [hFe, h2, List.append_nil] at hsF
            rcases List.mem_append.mp ha with h5 | h5
            · have := (List.pairwise_append.mp hsF).2.2 a h5 r0 (by rw [hR0]; exact List.mem_cons_self)
              have h6 : w.h.num r0 < w.f.numRegs := (hall _).mpr (Or.inl (hRn _ (by omega) (by omega)))
              omega
            · have h6 := hRmem a h5
              have h7 : k + R'.length - 1 < w.f.numRegs := (hall _).mpr (Or.inl (hRn _ (by omega) (by omega)))
              omega)
          exact this
  · rw [if_neg hf]
    have hF : F = [] := by
      have hfr := Hf.free
      cases F with
      | nil => rfl
      | cons a F => exact absurd (by rw [hfr.1]; exact hfr.2.1) hf
    simp only []
    rw [if_neg (by omega)]
    exact hnew (by
      intro k hk
      have := hk 0 (by omega)
      rw [hF] at this; cases this) (by rw [hF]; intro a ha; cases ha)

/-! ### The end of a frame -/

theorem lastReg_spec {h : RegHeap} : ∀ (fuel : Nat) (l : List Nat) (a p : Nat), Sll h.next p (a :: l) → l.length < fuel →
    lastReg h fuel p = (a :: l).getLast? := by
  intro fuel
  induction fuel with
  | zero => intro l a p _ h; omega
  | succ fuel ih =>
    intro l a p hs hl
    obtain ⟨s1, s2, s3⟩ := hs
    subst s1
    unfold lastReg
    cases l with
    | nil =>
      have : h.next p = 0 := s3
      rw [if_neg (by omega)]; rfl
    | cons b l =>
      have hb : h.next p ≠ 0 := by rw [s3.1]; exact s3.2.1
      rw [if_pos hb, ih l b _ s3 (by simp only [List.length_cons] at hl; omega)]
      simp [List.getLast?_cons]

/-- The objects of a list go to the front of the unused ones. -/
theorem freeAllRegs_ok {h : RegHeap} {unused p : Nat} {L N : List Nat} (hL : Sll h.next p L) (hN : Sll h.next unused N) (hnd : (L ++ N).Nodup) (hlen : L.length ≤ 255) :
    ∃ h' u', freeAllRegs h unused p = some (h', u') ∧ Sll h'.next u' (L ++ N) ∧ h'.prev = h.prev ∧ h'.num = h.num ∧ h'.tmp = h.tmp ∧
      ∀ x, x ∉ L → h'.next x = h.next x := by
  unfold freeAllRegs
  cases L with
  | nil =>
    have : p = 0 := hL
    rw [if_neg (by omega)]
    exact ⟨h, unused, rfl, hN, rfl, rfl, rfl, fun _ _ => rfl⟩
  | cons a L =>
    have hp : p ≠ 0 := by rw [hL.1]; exact hL.2.1
    rw [if_pos hp, lastReg_spec 256 L a p hL (by simp only [List.length_cons] at hlen; omega)]
    obtain ⟨last, hlast⟩ : ∃ x, (a :: L).getLast? = some x := ⟨_, getLast?_cons' a L⟩
    rw [hlast]
    have hmem : last ∈ a :: L := List.mem_of_getLast? hlast
    obtain ⟨n1, n2, n3⟩ := List.nodup_append.mp hnd
    refine ⟨_, _, rfl, ?_, rfl, rfl, rfl, ?_⟩
    · refine Sll.relink (A := a :: L) (B := []) (p := p) (v := unused) (by simpa using hL) n1 ?_ ?_ ?_ (by simp)
      · refine hN.congr ?_
        intro x hx
        simp only [upd]; rw [if_neg (fun h => n3 last hmem x hx h.symm)]
      · intro x _ hl
        simp only [upd]; rw [if_neg (fun h => hl (by rw [h]; exact hlast))]
      · intro x hx
        rw [hlast] at hx
        cases hx
        simp [upd]
    · intro x hx
      simp only [upd]; rw [if_neg (fun h => hx (by rw [h]; exact hmem))]

end Verif.Compiler
