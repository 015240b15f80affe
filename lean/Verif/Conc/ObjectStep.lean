import Verif.Conc.ObjectFacts

/-!
Steps of `find_property`, `set_property` and `resize_prop_table` keep the invariant.
-/
namespace Verif.PropTab
open Verif.Conc (upd sumTo sumTo_congr sumTo_upd sumTo_zero pend_le)

/-- A step keeps the invariant, and what it tells is what happens with the properties. -/
def Good (r : Rules) (n : Nat) (a : Abs) : Res → Prop
  | .ok s none => ∃ g, Inv r n s a g
  | .ok s (some e) => ∃ a' g, Atomic a e a' ∧ Inv r n s a' g
  | .bad => False
  | .no => True

/-- A thread which does not copy. -/
def plain : Local → Bool
  | .copy _ _ _ => false
  | _ => true

theorem plain_dang {l : Local} (h : plain l = true) (k : Nat) : dang k l = false := by
  cases l <;> first | rfl | (cases h)

theorem plain_pend {l : Local} (h : plain l = true) (k : Nat) : pend k l = 0 := by
  cases l <;> first | rfl | (cases h)

theorem plain_counted {l : Local} (h : plain l = true) (k : Nat) : counted k l = 0 := by
  cases l <;> first | rfl | (cases h)

theorem plain_owns {l : Local} (h : plain l = true) (k p : Nat) : ¬ Owns l k p := by
  intro ho; cases ho <;> cases h

theorem plain_hd {s : St} {l : Local} (h : plain l = true) (k : Nat) : dang k l = true → ¬ Done s k := by
  intro hd; rw [plain_dang h] at hd; cases hd

section
variable {r : Rules} {n : Nat} {s : St} {a : Abs} {g : Nat → Option Nat} {t : Nat}

/-- A step between two places outside of `copy_table`. -/
theorem Inv.hop (h : Inv r n s a g) (ht : t < n) {x : Local} (h1 : plain (s.th t) = true) (h2 : plain x = true)
    (hx : LInv r (s.goto t x) a g t x) : Inv r n (s.goto t x) a g :=
  h.local t ht x (fun k => plain_hd h2 k) hx (fun k p => ⟨fun h => (plain_owns h2 k p h).elim, fun h => (plain_owns h1 k p h).elim⟩)
    (fun k => by rw [plain_pend h1, plain_pend h2]) (fun k => by rw [plain_counted h1, plain_counted h2])

theorem same_plain {x : Local} (h2 : plain x = true) : Same s (s.goto t x) := Same.goto (fun k => plain_hd h2 k)

theorem good_idle (h : Inv r n s a g) (ht : t < n) (hl : s.th t = .idle) (o : Op) : Good r n a (.ok (s.goto t (.props o)) (some (.begin t o))) := by
  refine ⟨a.start t o, g, .begin a t o, ?_⟩
  have hp : plain (s.th t) = true := by rw [hl]; rfl
  have hx : plain (.props o) = true := rfl
  have hn : ∀ u, (s.goto t (.props o)).th u = if u = t then .props o else s.th u := by intro u; simp [St.goto, upd]
  have hE : Ext s (s.goto t (.props o)) a (a.start t o) t := by
    have e := Ext.same h (t := t) (x := .props o) (fun k => plain_hd hx k)
    exact { e with
      op := fun u hu => by simp [Abs.start, hu]
      gone := fun u hu h => by simp [Abs.start, hu]; exact h
      over := fun u hu h => by simp [Abs.start, hu]; exact h
      live := fun m p k h1 h2 => Or.inr ⟨m, p, Nat.le_refl _, h1, h2, fun i h3 h4 => by omega⟩
      stay := fun _ _ _ _ _ _ => Or.inl rfl }
  have hS : Sh r s.toMem (a.start t o) g := by
    refine { h.sh with gone := fun u => ?_ }
    show a.map _ = none → _
    by_cases hu : u = t
    · simp [Abs.start, hu]
    · simp only [Abs.start, hu, if_false]; exact h.sh.gone u
  refine h.move (s1 := s) t ht (.props o) rfl rfl hE (fun _ _ _ _ _ => ⟨rfl, rfl⟩) hS ?_ ?_ ?_ ?_ ?_ ?_ ?_
  · show (a.start t o).op t = o
    simp [Abs.start]
  · exact fun i hi => (same_plain hx).done i (h.done i hi)
  · intro j p hv
    obtain ⟨k, u, h1, h2, h3⟩ := h.res j p hv
    refine ⟨k, u, h1, h2, ?_⟩
    rw [hn]
    split
    · next he => subst he; exact (plain_owns hp k p h3).elim
    · exact h3
  · intro u k p _ _ ho
    exact plain_owns hx k p ho
  · intro k hk
    rw [plain_pend hp, plain_pend hx]
    have := h.opens k hk
    omega
  · intro k hk
    rw [plain_counted hp, plain_counted hx]
    have := h.actives k hk
    omega
  · intro k i hi hc
    rcases h.started k i hi hc with h1 | ⟨u, hu⟩
    · exact Or.inl h1
    · refine Or.inr ⟨u, ?_⟩
      rw [hn]
      split
      · next he => subst he; rw [plain_counted hp] at hu; cases hu
      · exact hu

theorem good_props (h : Inv r n s a g) (ht : t < n) {o : Op} (hl : s.th t = .props o) : Good r n a (.ok (s.goto t (.key o s.data 0)) none) := by
  have hi := h.th t
  rw [hl] at hi
  exact ⟨g, h.hop ht (by rw [hl]; rfl) rfl ⟨(same_plain rfl).at (h.enter hi), seen_zero _ _⟩⟩

theorem cont_help (e : Same s (s.goto t (.help c k))) (hk : k < s.last) (h : ContInv s a t k c) :
    LInv r (s.goto t (.help c k)) a g t (.help c k) := ⟨hk, e.cont h⟩

/-- The slot is closed: go on in the new table. -/
theorem good_closed (h : Inv r n s a g) (ht : t < n) {o : Op} {j m : Nat} (hp : plain (s.th t) = true) (ha : At s a t o j)
    (hc : s.val j (slot r s.toMem j o.key m) = .closed) (hw : o.writes = true → has s.toMem j o.key) :
    Good r n a (.ok (s.goto t (.help (.next o) j)) none) := by
  have hj : j < s.last := by
    have := ha.le
    by_cases he : j = s.last
    · subst he; exact (h.sh.front _ hc).elim
    · omega
  exact ⟨g, h.hop ht hp rfl (cont_help (same_plain rfl) hj ⟨ha, ⟨_, h.sh.slot_lt ha.le _ _, hc⟩, hw⟩)⟩

theorem good_hash (h : Inv r n s a g) (ht : t < n) {o : Op} {j m : Nat} (hl : s.th t = .hash o j m) (f : Nat → Nat → Bool) :
    Good r n a (.ok ({ s with hashed := f }.goto t (.val o j m o.key)) none) := by
  have hi := h.th t
  rw [hl] at hi
  obtain ⟨h1, h2, h3, h4⟩ := hi
  have hx : plain (.val o j m o.key) = true := rfl
  have hI : Inv r n (s.goto t (.val o j m o.key)) a g := by
    exact h.hop ht (by rw [hl]; rfl) hx ⟨(same_plain hx).at h1, h4, h3, fun _ => rfl⟩
  have e : Same (s.goto t (.val o j m o.key)) ({ s with hashed := f }.goto t (.val o j m o.key)) := ⟨rfl, fun k hk => hk⟩
  have e' : ∀ u, LInv r (s.goto t (.val o j m o.key)) a g u ((s.goto t (.val o j m o.key)).th u) →
      LInv r ({ s with hashed := f }.goto t (.val o j m o.key)) a g u ((s.goto t (.val o j m o.key)).th u) := by
    intro u
    generalize (s.goto t (.val o j m o.key)).th u = l
    intro hl
    cases l with
    | idle => trivial
    | props o => exact hl
    | key o j n => exact ⟨e.at hl.1, hl.2⟩
    | hash o j n => exact ⟨e.at hl.1, hl.2⟩
    | val o j n x => exact ⟨e.at hl.1, hl.2⟩
    | cas o j n x => exact ⟨e.at hl.1, hl.2⟩
    | re o j n => exact ⟨e.at hl.1, hl.2⟩
    | fin j => exact hl
    | rz c j => exact e.rz hl
    | link c j m => exact ⟨e.rz hl.1, hl.2⟩
    | help c k => exact ⟨hl.1, e.cont hl.2⟩
    | copy c k pc =>
      refine ⟨hl.1, e.cont hl.2.1, ?_⟩
      have := hl.2.2
      cases pc <;> exact this
  exact ⟨g, ⟨hI.sh, hI.idle, hI.done, hI.res, hI.uniq, hI.opens, hI.actives, hI.started, fun u => e' u (hI.th u)⟩⟩

theorem good_val (h : Inv r n s a g) (ht : t < n) {o : Op} {j m x : Nat} (hl : s.th t = .val o j m x) (ho : o.writes = true) :
    Good r n a (if s.val j (slot r s.toMem j o.key m) = .closed then .ok (s.goto t (.help (.next o) j)) none
      else .ok (s.goto t (.cas o j m (s.val j (slot r s.toMem j o.key m)))) none) := by
  have hi := h.th t
  rw [hl] at hi
  obtain ⟨h1, h2, h3, h4⟩ := hi
  rw [h4 ho] at h3
  split
  · next hc => exact good_closed h ht (by rw [hl]; rfl) h1 hc (fun _ => ⟨_, h3⟩)
  · next hc => exact ⟨g, h.hop ht (by rw [hl]; rfl) rfl ⟨(same_plain rfl).at h1, ho, h3, hc, Or.inl rfl⟩⟩

theorem good_find (h : Inv r n s a g) (ht : t < n) {k j m x : Nat} (hl : s.th t = .val (.get k) j m x) :
    Good r n a (findStep s t (.get k) j m x (s.val j (slot r s.toMem j k m))) := by
  have hi := h.th t
  rw [hl] at hi
  obtain ⟨h1, h2, h3, h4⟩ := hi
  have hp : plain (s.th t) = true := by rw [hl]; rfl
  have hidle : Inv r n (s.goto t .idle) a g := h.hop ht hp rfl trivial
  have next : x ≠ k → Good r n a (if m = s.cap j then .ok (s.goto t .idle) (some (.absent t)) else .ok (s.goto t (.key (.get k) j (m + 1))) none) := by
    intro hne
    split
    · next hm =>
      refine ⟨a, g, .absentGet a t k h1.op ?_, hidle⟩
      exact h1.trail.gone (h.sh.not_has_all h1.le (by rw [← hm]; exact h2))
    · exact ⟨g, h.hop ht hp rfl ⟨(same_plain rfl).at h1, seen_succ h2 h3 hne⟩⟩
  have h3' : x = k → s.key j (slot r s.toMem j k m) = some k := fun he => by rw [← he]; rw [← he] at h3; exact h3
  generalize hv : s.val j (slot r s.toMem j k m) = v
  cases v with
  | closed => exact good_closed h ht hp h1 hv (fun hw => by cases hw)
  | tomb =>
    show Good r n a (if x = k then _ else _)
    split
    · next he =>
      refine ⟨a, g, .absentGet a t k h1.op ?_, hidle⟩
      refine h.sh.gone t ?_
      rw [h1.op]
      refine h.sh.r2 _ _ _ (h3' he) hv (fun hj => ?_)
      intro i q hi hq
      exact (h1.past i (by omega)).1 q (h.sh.lt hq).2
    · next he => exact next he
  | val v =>
    show Good r n a (if x = k then _ else _)
    split
    · next he => exact ⟨a, g, .found a t k v h1.op (h.sh.r1 _ _ _ _ (h3' he) hv), hidle⟩
    · next he => exact next he
  | reserved => exact (h.not_reserved h1.past hv).elim

theorem good_re (h : Inv r n s a g) (ht : t < n) {o : Op} {j m : Nat} (hl : s.th t = .re o j m) :
    Good r n a (if s.val j (slot r s.toMem j o.key m) = .closed then .ok (s.goto t (.help (.next o) j)) none
      else .ok (s.goto t (.fin j)) (some (.lost t))) := by
  have hi := h.th t
  rw [hl] at hi
  obtain ⟨h1, h2, h3, h4⟩ := hi
  have hp : plain (s.th t) = true := by rw [hl]; rfl
  split
  · next hc => exact good_closed h ht hp h1 hc (fun _ => ⟨_, h3⟩)
  · next hc =>
    have ho : a.over t = true := by
      rcases h4 with h4 | h4
      · exact (hc h4).elim
      · exact h4
    have hI : Inv r n (s.goto t (.fin j)) a g := h.hop ht hp rfl ⟨h1.le, fun i hi => (same_plain rfl).done i (h1.past i hi)⟩
    cases o with
    | get k => cases h2
    | set k v => exact ⟨a, g, .lostSet a t k v h1.op ho, hI⟩
    | del k => exact ⟨a, g, .lostDel a t k h1.op ho, hI⟩

theorem good_fin (h : Inv r n s a g) (ht : t < n) {j : Nat} (hl : s.th t = .fin j) (ch : Choice) :
    Good r n a (match ch with
      | .move => .ok (s.goto t (.rz .stop j)) none
      | _ => .ok (s.goto t .idle) none) := by
  have hi := h.th t
  rw [hl] at hi
  have hp : plain (s.th t) = true := by rw [hl]; rfl
  have hI : Inv r n (s.goto t .idle) a g := h.hop ht hp rfl trivial
  cases ch with
  | move => exact ⟨g, h.hop ht hp rfl ⟨hi.1, fun i h => (same_plain rfl).done i (hi.2 i h), trivial⟩⟩
  | go => exact ⟨g, hI⟩
  | fail => exact ⟨g, hI⟩
  | op o => exact ⟨g, hI⟩
  | cap m => exact ⟨g, hI⟩

/-- `resize_prop_table` begins with `help_copy_table` if there is a new table already. -/
theorem good_helps (h : Inv r n s a g) (ht : t < n) {c : Cont} {j : Nat} (hp : plain (s.th t) = true) (hr : RzInv s a t j c) (hj : j < s.last) :
    Good r n a (.ok (s.goto t (.help c j)) none) := by
  refine ⟨g, h.hop ht hp rfl (cont_help (same_plain rfl) hj ?_)⟩
  obtain ⟨_, _, h3⟩ := hr
  cases c with
  | next o => exact h3.elim
  | again o => exact h3
  | stop => trivial

theorem good_rz (h : Inv r n s a g) (ht : t < n) {c : Cont} {j : Nat} (hl : s.th t = .rz c j) (ch : Choice) :
    Good r n a (if j < s.last then .ok (s.goto t (.help c j)) none
      else match ch with
        | .cap m => if 0 < m then .ok (s.goto t (.link c j m)) none else .no
        | .fail => .ok (s.goto t .idle) none
        | _ => .no) := by
  have hi := h.th t
  rw [hl] at hi
  have hp : plain (s.th t) = true := by rw [hl]; rfl
  split
  · next hj => exact good_helps h ht hp hi hj
  · cases ch with
    | cap m =>
      show Good r n a (if 0 < m then _ else _)
      split
      · next hm => exact ⟨g, h.hop ht hp rfl ⟨(same_plain rfl).rz hi, hm⟩⟩
      · trivial
    | fail => exact ⟨g, h.hop ht hp rfl trivial⟩
    | go => trivial
    | op o => trivial
    | move => trivial

/-- What follows when the table has been copied. -/
theorem resume_plain (c : Cont) (k : Nat) : plain (c.resume k) = true := by
  cases c <;> rfl

theorem resume_inv (h : Inv r n s a g) {c : Cont} {k : Nat} (hk : k < s.last) (hc : ContInv s a t k c) (hd : (∃ o, c = .next o) → Done s k) :
    LInv r s a g t (c.resume k) := by
  cases c with
  | next o => exact ⟨h.follow hc.1 hk (hd ⟨o, rfl⟩) hc.2.2, seen_zero _ _⟩
  | again o => exact hc
  | stop => trivial

theorem Same.hop {s s' : St} (e : Same s s') {l : Local} (hp : plain l = true) (hl : LInv r s a g t l) : LInv r s' a g t l := by
  obtain ⟨m, d⟩ := e
  have e : Same s s' := ⟨m, d⟩
  cases l with
  | idle => trivial
  | props o => exact hl
  | key o j n => exact ⟨e.at hl.1, by rw [m]; exact hl.2⟩
  | hash o j n => exact ⟨e.at hl.1, by rw [m]; exact hl.2⟩
  | val o j n x => exact ⟨e.at hl.1, by rw [m]; exact hl.2⟩
  | cas o j n x => exact ⟨e.at hl.1, by rw [m]; exact hl.2⟩
  | re o j n => exact ⟨e.at hl.1, by rw [m]; exact hl.2⟩
  | fin j => exact ⟨by rw [m]; exact hl.1, fun i hi => d i (hl.2 i hi)⟩
  | rz c j => exact e.rz hl
  | link c j m => exact ⟨e.rz hl.1, hl.2⟩
  | help c k => exact ⟨by rw [m]; exact hl.1, e.cont hl.2⟩
  | copy c k pc => cases hp

theorem copy_start_inv {c : Cont} {k : Nat} (hk : k < s.last) (hc : ContInv s a t k c) :
    LInv r (s.goto t (.copy c k .start)) a g t (.copy c k .start) := by
  refine ⟨hk, (Same.goto (fun i hd => ?_)).cont hc, trivial⟩
  simp [dang, dangPc] at hd

theorem good_help (h : Inv r n s a g) (ht : t < n) {c : Cont} {k : Nat} (hl : s.th t = .help c k) :
    Good r n a (if k < s.last then
        if s.active k = 0 then .ok (s.goto t (c.resume k)) none
        else .ok (s.goto t (.copy c k .start)) none
      else .bad) := by
  have hi := h.th t
  rw [hl] at hi
  have hp : plain (s.th t) = true := by rw [hl]; rfl
  rw [if_pos hi.1]
  split
  · next h0 =>
    refine ⟨g, h.hop ht hp (resume_plain c k) ((same_plain (resume_plain c k)).hop (resume_plain c k) (resume_inv h hi.1 hi.2 ?_))⟩
    rintro ⟨o, rfl⟩
    obtain ⟨_, ⟨i, h1, h2⟩, _⟩ := hi.2
    exact h.quiet hi.1 h0 h1 h2
  · refine ⟨g, h.local t ht _ (fun i hd => ?_) (copy_start_inv hi.1 hi.2) ?_ ?_ ?_⟩
    · simp [dang, dangPc] at hd
    · intro i p
      exact ⟨fun ho => (by cases ho), fun ho => (plain_owns hp i p ho).elim⟩
    · intro i
      rw [plain_pend hp]; simp [pend, pendPc]
    · intro i
      rw [plain_counted hp]; simp [counted, countPc]

end

end Verif.PropTab
