/-
  The optimizer ends.

  It visits each function again while it finds something to optimize, and the
  whole program again while anything was found.  Most optimizations happen once
  (a use becomes LOAD.CONST, a variable becomes a constant), but the counters of
  a function are compared with those of the visit before, and the counters of an
  outer function depend on how many times the functions inside are visited.
-/
import Verif.Clos.Link

namespace Verif.Clos

/-- How many times a function is marked when everything inside is visited once. -/
def cnt (fl : Nat → Bool) : List Nat → E → Nat → Nat
  | _, .num _, _ => 0
  | st, .ref r i _, G => if fl r then 0 else (st.take i).count G
  | st, .set i _ e, G => cnt fl st e G + (st.take i).count G
  | st, .add a b, G => cnt fl st a G + cnt fl st b G
  | st, .seq a b, G => cnt fl st a G + cnt fl st b G
  | st, .ite c a b, G => cnt fl st c G + (cnt fl st a G + cnt fl st b G)
  | st, .whl c b, G => cnt fl st c G + cnt fl st b G
  | st, .call f a, G => cnt fl st f G + cnt fl st a G
  | st, .fn F _ b, G => cnt fl (F :: st) b G
  | st, .letv _ e rest, G => cnt fl st e G + cnt fl st rest G
  | st, .letf _ F _ b rest, G => cnt fl (F :: st) b G + cnt fl st rest G

/-- The visit before found no more uses than there are. -/
def Settled (fl : Nat → Bool) (pr : Nat → Nat) : List Nat → E → Prop
  | _, .num _ => True
  | _, .ref _ _ _ => True
  | st, .set _ _ e => Settled fl pr st e
  | st, .add a b => Settled fl pr st a ∧ Settled fl pr st b
  | st, .seq a b => Settled fl pr st a ∧ Settled fl pr st b
  | st, .ite c a b => Settled fl pr st c ∧ (Settled fl pr st a ∧ Settled fl pr st b)
  | st, .whl c b => Settled fl pr st c ∧ Settled fl pr st b
  | st, .call f a => Settled fl pr st f ∧ Settled fl pr st a
  | st, .fn F _ b => pr F ≤ cnt fl (F :: st) b F ∧ Settled fl pr (F :: st) b
  | st, .letv _ e rest => Settled fl pr st e ∧ Settled fl pr st rest
  | st, .letf _ F _ b rest =>
    (pr F ≤ cnt fl (F :: st) b F ∧ Settled fl pr (F :: st) b) ∧ Settled fl pr st rest

section
variable (Rl Vl Fl : List Nat)

/-- What can still be optimized once. -/
def left (s : St) : Nat :=
  Rl.countP (fun r => !s.flag r) + Vl.countP (fun v => !s.isConst v) +
    Fl.countP (fun F => decide (s.defs F ≠ 0))

variable {Rl Vl Fl}

theorem countP_le {l : List Nat} {p q : Nat → Bool} (h : ∀ x ∈ l, p x = true → q x = true) :
    l.countP p ≤ l.countP q := List.countP_mono_left h

theorem countP_same {l : List Nat} {p q : Nat → Bool} (h : ∀ x ∈ l, p x = true → q x = true)
    (he : l.countP p = l.countP q) : ∀ x ∈ l, p x = q x := by
  induction l with
  | nil => intro x hx; cases hx
  | cons a r ih =>
    have h1 := countP_le (l := r) (fun x hx => h x (List.mem_cons_of_mem _ hx))
    have h2 := h a List.mem_cons_self
    rw [List.countP_cons, List.countP_cons] at he
    intro x hx
    rcases List.mem_cons.1 hx with rfl | hm
    · cases hp : p x <;> cases hq : q x <;> simp [hp, hq] at he h2 ⊢ ; omega
    · refine ih (fun x hx => h x (List.mem_cons_of_mem _ hx)) ?_ x hm
      cases hp : p a <;> cases hq : q a <;> simp [hp, hq] at he h2 ⊢ <;> omega

theorem left_le {s s' : St} (h : Mono s s') : left Rl Vl Fl s' ≤ left Rl Vl Fl s := by
  have h1 : Rl.countP (fun r => !s'.flag r) ≤ Rl.countP (fun r => !s.flag r) := countP_le (by
    intro x _ hx
    cases hf : s.flag x with
    | false => rfl
    | true => simp [h.flag x hf] at hx)
  have h2 : Vl.countP (fun r => !s'.isConst r) ≤ Vl.countP (fun r => !s.isConst r) := countP_le (by
    intro x _ hx
    cases hf : s.isConst x with
    | false => rfl
    | true => simp [h.const x hf] at hx)
  have h3 : Fl.countP (fun F => decide (s'.defs F ≠ 0)) ≤ Fl.countP (fun F => decide (s.defs F ≠ 0)) :=
    countP_le (by
      intro x _ hx
      by_cases hf : s.defs x = 0
      · simp [h.defs x hf] at hx
      · simp [hf])
  unfold left
  omega

/-- Nothing was optimized. -/
theorem left_same {s s' : St} (h : Mono s s') (he : left Rl Vl Fl s' = left Rl Vl Fl s) :
    (∀ r ∈ Rl, s'.flag r = s.flag r) ∧ (∀ v ∈ Vl, s'.isConst v = s.isConst v) ∧
      (∀ F ∈ Fl, s'.defs F = 0 → s.defs F = 0) := by
  have c1 : ∀ x ∈ Rl, (!s'.flag x) = true → (!s.flag x) = true := by
    intro x _ hx
    cases hf : s.flag x with
    | false => rfl
    | true => simp [h.flag x hf] at hx
  have c2 : ∀ x ∈ Vl, (!s'.isConst x) = true → (!s.isConst x) = true := by
    intro x _ hx
    cases hf : s.isConst x with
    | false => rfl
    | true => simp [h.const x hf] at hx
  have c3 : ∀ x ∈ Fl, (decide (s'.defs x ≠ 0)) = true → (decide (s.defs x ≠ 0)) = true := by
    intro x _ hx
    by_cases hf : s.defs x = 0
    · simp [h.defs x hf] at hx
    · simp [hf]
  have h1 := countP_le c1
  have h2 := countP_le c2
  have h3 := countP_le c3
  unfold left at he
  refine ⟨?_, ?_, ?_⟩
  · intro r hr
    have := countP_same c1 (by omega) r hr
    simpa using this
  · intro r hr
    have := countP_same c2 (by omega) r hr
    simpa using this
  · intro r hr h0
    have := countP_same c3 (by omega) r hr
    simpa [h0] using this

/-- A count and a condition which depend on the uses of variables and on the
    functions `fs` only. -/
structure Congr (Rl : List Nat) (c : (Nat → Bool) → Nat → Nat) (T : (Nat → Bool) → (Nat → Nat) → Prop)
    (fs : List Nat) : Prop where
  c : ∀ fl fl', (∀ r ∈ Rl, fl r = fl' r) → ∀ G, c fl G = c fl' G
  t : ∀ fl fl' pr pr', (∀ r ∈ Rl, fl r = fl' r) → (∀ G ∈ fs, pr G = pr' G) → T fl pr → T fl' pr'

theorem cnt_congr {fl fl' : Nat → Bool} (h : ∀ r ∈ Rl, fl r = fl' r) (G : Nat) :
    ∀ (e : E) (st : List Nat), (∀ x ∈ refsOf st e, x.r ∈ Rl) → cnt fl st e G = cnt fl' st e G := by
  intro e
  induction e with
  | num n => intro st _; rfl
  | ref r i v =>
    intro st hr
    have := h r (hr ⟨st, r, i, v⟩ (List.mem_singleton.2 rfl))
    simp only [cnt, this]
  | set i v e ih => intro st hr; simp only [cnt, ih st hr]
  | add a b iha ihb | seq a b iha ihb | whl a b iha ihb | call a b iha ihb =>
    intro st hr
    simp only [cnt, iha st (fun x hx => hr x (List.mem_append_left _ hx)),
      ihb st (fun x hx => hr x (List.mem_append_right _ hx))]
  | ite c a b ihc iha ihb =>
    intro st hr
    simp only [cnt, ihc st (fun x hx => hr x (List.mem_append_left _ hx)),
      iha st (fun x hx => hr x (List.mem_append_right _ (List.mem_append_left _ hx))),
      ihb st (fun x hx => hr x (List.mem_append_right _ (List.mem_append_right _ hx)))]
  | fn F p b ih => intro st hr; simp only [cnt, ih (F :: st) hr]
  | letv v e rest ihe ihr =>
    intro st hr
    simp only [cnt, ihe st (fun x hx => hr x (List.mem_append_left _ hx)),
      ihr st (fun x hx => hr x (List.mem_append_right _ hx))]
  | letf v F p b rest ihb ihr =>
    intro st hr
    simp only [cnt, ihb (F :: st) (fun x hx => hr x (List.mem_append_left _ hx)),
      ihr st (fun x hx => hr x (List.mem_append_right _ hx))]

theorem settled_congr {fl fl' : Nat → Bool} {pr pr' : Nat → Nat} (h : ∀ r ∈ Rl, fl r = fl' r) :
    ∀ (e : E) (st : List Nat), (∀ x ∈ refsOf st e, x.r ∈ Rl) → (∀ G ∈ funsOf e, pr G = pr' G) →
      Settled fl pr st e → Settled fl' pr' st e := by
  intro e
  induction e with
  | num n => intro st _ _ _; trivial
  | ref r i v => intro st _ _ _; trivial
  | set i v e ih => intro st hr hf hs; exact ih st hr hf hs
  | add a b iha ihb | seq a b iha ihb | whl a b iha ihb | call a b iha ihb =>
    intro st hr hf hs
    exact ⟨iha st (fun x hx => hr x (List.mem_append_left _ hx))
        (fun x hx => hf x (List.mem_append_left _ hx)) hs.1,
      ihb st (fun x hx => hr x (List.mem_append_right _ hx))
        (fun x hx => hf x (List.mem_append_right _ hx)) hs.2⟩
  | ite c a b ihc iha ihb =>
    intro st hr hf hs
    exact ⟨ihc st (fun x hx => hr x (List.mem_append_left _ hx))
        (fun x hx => hf x (List.mem_append_left _ hx)) hs.1,
      iha st (fun x hx => hr x (List.mem_append_right _ (List.mem_append_left _ hx)))
        (fun x hx => hf x (List.mem_append_right _ (List.mem_append_left _ hx))) hs.2.1,
      ihb st (fun x hx => hr x (List.mem_append_right _ (List.mem_append_right _ hx)))
        (fun x hx => hf x (List.mem_append_right _ (List.mem_append_right _ hx))) hs.2.2⟩
  | fn F p b ih =>
    intro st hr hf hs
    refine ⟨?_, ih (F :: st) hr (fun x hx => hf x (List.mem_cons_of_mem _ hx)) hs.2⟩
    rw [← hf F List.mem_cons_self, ← cnt_congr h F b (F :: st) hr]
    exact hs.1
  | letv v e rest ihe ihr =>
    intro st hr hf hs
    exact ⟨ihe st (fun x hx => hr x (List.mem_append_left _ hx))
        (fun x hx => hf x (List.mem_append_left _ hx)) hs.1,
      ihr st (fun x hx => hr x (List.mem_append_right _ hx))
        (fun x hx => hf x (List.mem_append_right _ hx)) hs.2⟩
  | letf v F p b rest ihb ihr =>
    intro st hr hf hs
    refine ⟨⟨?_, ihb (F :: st) (fun x hx => hr x (List.mem_append_left _ hx))
        (fun x hx => hf x (List.mem_append_left _ (List.mem_cons_of_mem _ hx))) hs.1.2⟩,
      ihr st (fun x hx => hr x (List.mem_append_right _ hx))
        (fun x hx => hf x (List.mem_append_right _ hx)) hs.2⟩
    rw [← hf F (List.mem_append_left _ List.mem_cons_self),
      ← cnt_congr h F b (F :: st) (fun x hx => hr x (List.mem_append_left _ hx))]
    exact hs.1.1

theorem congr_of {e : E} {st : List Nat} (hr : ∀ x ∈ refsOf st e, x.r ∈ Rl) :
    Congr Rl (fun fl => cnt fl st e) (fun fl pr => Settled fl pr st e) (funsOf e) :=
  ⟨fun _ _ h G => cnt_congr h G e st hr, fun _ _ _ _ h hf => settled_congr h e st hr hf⟩

/-- What visiting something did, from a state where `acc` optimizations were
    counted. -/
structure Fact (Rl Vl Fl : List Nat) (st : List Nat) (c : (Nat → Bool) → Nat → Nat)
    (T : (Nat → Bool) → (Nat → Nat) → Prop) (fs : List Nat) (acc : Nat) (s s' : St) : Prop where
  mono : Mono s s'
  opts : acc ≤ s'.opts
  prev : ∀ G, G ∉ fs → s'.prev G = s.prev G
  cnt : left Rl Vl Fl s' = left Rl Vl Fl s → s'.opts = acc → ∀ G ∈ st, s'.binds G = s.binds G + c s.flag G
  stay : left Rl Vl Fl s' = left Rl Vl Fl s → T s.flag s.prev → s'.opts = acc
  settle : left Rl Vl Fl s' = left Rl Vl Fl s → T s.flag s'.prev

theorem Fact.comp {st c T fs c' T' fs' s s1 s2} (h : Fact Rl Vl Fl st c T fs s.opts s s1)
    (k : Fact Rl Vl Fl st c' T' fs' s1.opts s1 s2) (hc : Congr Rl c T fs) (kc : Congr Rl c' T' fs')
    (hd : ∀ G ∈ fs, G ∉ fs') :
    Fact Rl Vl Fl st (fun fl G => c fl G + c' fl G) (fun fl pr => T fl pr ∧ T' fl pr) (fs ++ fs')
      s.opts s s2 := by
  have l1 := left_le (Rl := Rl) (Vl := Vl) (Fl := Fl) h.mono
  have l2 := left_le (Rl := Rl) (Vl := Vl) (Fl := Fl) k.mono
  refine ⟨h.mono.trans k.mono, Nat.le_trans h.opts k.opts, ?_, ?_, ?_, ?_⟩
  · intro G hG
    rw [k.prev G (fun hm => hG (List.mem_append_right _ hm)),
      h.prev G (fun hm => hG (List.mem_append_left _ hm))]
  · intro he ho G hG
    have e1 : left Rl Vl Fl s1 = left Rl Vl Fl s := by omega
    have e2 : left Rl Vl Fl s2 = left Rl Vl Fl s1 := by omega
    have := h.opts
    have := k.opts
    rw [k.cnt e2 (by omega) G hG, h.cnt e1 (by omega) G hG,
      kc.c _ _ (left_same h.mono e1).1 G]
    omega
  · intro he ⟨t1, t2⟩
    have e1 : left Rl Vl Fl s1 = left Rl Vl Fl s := by omega
    have e2 : left Rl Vl Fl s2 = left Rl Vl Fl s1 := by omega
    have o1 := h.stay e1 t1
    have o2 := k.stay e2 (kc.t _ _ _ _ (fun r hr => ((left_same h.mono e1).1 r hr).symm)
      (fun G hG => (h.prev G (fun hm => hd G hm hG)).symm) t2)
    omega
  · intro he
    have e1 : left Rl Vl Fl s1 = left Rl Vl Fl s := by omega
    have e2 : left Rl Vl Fl s2 = left Rl Vl Fl s1 := by omega
    refine ⟨hc.t _ _ _ _ (fun r hr => rfl) (fun G hG => ?_) (h.settle e1),
      kc.t _ _ _ _ (left_same h.mono e1).1 (fun G _ => rfl) (k.settle e2)⟩
    exact (k.prev G (hd G hG)).symm

/-- A step without uses of variables and functions. -/
theorem Fact.plain {st s s'} (hm : Mono s s') (ho : s.opts ≤ s'.opts)
    (hp : s'.prev = s.prev) (hb : s'.binds = s.binds)
    (hq : left Rl Vl Fl s' = left Rl Vl Fl s → s'.opts = s.opts) :
    Fact Rl Vl Fl st (fun _ _ => 0) (fun _ _ => True) [] s.opts s s' :=
  ⟨hm, ho, fun G _ => by rw [hp], fun _ _ G _ => by rw [hb]; rfl, fun h _ => hq h, fun _ => trivial⟩

theorem congr_plain : Congr Rl (fun _ _ => 0) (fun _ _ => True) [] :=
  ⟨fun _ _ _ _ => rfl, fun _ _ _ _ _ _ _ => trivial⟩

theorem Congr.comp {c c' T T' fs fs'} (h : Congr Rl c T fs) (k : Congr Rl c' T' fs') :
    Congr Rl (fun fl G => c fl G + c' fl G) (fun fl pr => T fl pr ∧ T' fl pr) (fs ++ fs') :=
  ⟨fun _ _ e G => by rw [h.c _ _ e G, k.c _ _ e G],
   fun _ _ _ _ e f t => ⟨h.t _ _ _ _ e (fun G hG => f G (List.mem_append_left _ hG)) t.1,
     k.t _ _ _ _ e (fun G hG => f G (List.mem_append_right _ hG)) t.2⟩⟩

theorem Fact.conv {st c T fs c' T' fs' acc s s'} (h : Fact Rl Vl Fl st c T fs acc s s')
    (hc : ∀ fl G, c fl G = c' fl G) (ht : ∀ fl pr, T fl pr ↔ T' fl pr)
    (hf : ∀ G, G ∈ fs → G ∈ fs') : Fact Rl Vl Fl st c' T' fs' acc s s' :=
  ⟨h.mono, h.opts, fun G hG => h.prev G (fun hm => hG (hf G hm)),
   fun e o G hG => by rw [← hc]; exact h.cnt e o G hG,
   fun e t => h.stay e ((ht _ _).2 t), fun e => (ht _ _).1 (h.settle e)⟩

theorem promote_fact {st v s} (hv : v ∈ Vl) :
    Fact Rl Vl Fl st (fun _ _ => 0) (fun _ _ => True) [] s.opts s (promoteVar v s) := by
  unfold promoteVar
  split
  · rename_i h
    have hm : Mono s { s with isConst := upd s.isConst v true, opts := s.opts + 1 } := by
      refine ⟨fun _ h => h, ?_, fun _ _ h => h, fun _ h => h⟩
      intro w hw
      by_cases hwv : w = v
      · subst hwv; exact upd_same _ _ _
      · show upd s.isConst v true w = true
        rw [upd_other _ _ hwv]; exact hw
    refine Fact.plain hm (Nat.le_succ _) rfl rfl ?_
    intro he
    exfalso
    have := (left_same hm he).2.1 v hv
    have h2 : upd s.isConst v true v = s.isConst v := this
    rw [upd_same, h.1] at h2
    cases h2
  · exact Fact.plain (Mono.refl s) (Nat.le_refl _) rfl rfl (fun _ => rfl)

variable {R : List Use} {S : List Asg} {D : Nat → Option Nat}

theorem identifier_fact {st : List Nat} {r i v : Nat} {s : St}
    (ho : ∀ F, s.opn F = true ↔ F ∈ st) (hi : Inv R S D s) (hx : (⟨st, r, i, v⟩ : Use) ∈ R)
    (hr : r ∈ Rl) :
    Fact Rl Vl Fl st (fun fl => cnt fl st (.ref r i v)) (fun _ _ => True) [] s.opts s
      (identifier st r i v s) := by
  have mark : s.flag r = false → i ≠ 0 → Fact Rl Vl Fl st (fun fl => cnt fl st (.ref r i v)) (fun _ _ => True) []
      s.opts s (markBinds st i v s) := by
    intro hf _
    unfold markBinds
    rw [markLoop_spec]
    refine ⟨⟨fun _ h => h, fun _ h => h, fun _ _ h => h, fun _ h => h⟩, Nat.le_refl _,
      fun _ _ => rfl, ?_, fun _ _ => rfl, fun _ => trivial⟩
    intro _ _ G _
    simp only [cnt, hf, Bool.false_eq_true, if_false]
  unfold identifier
  by_cases h0 : i = 0
  · rw [if_pos h0]
    refine ⟨Mono.refl s, Nat.le_refl _, fun _ _ => rfl, ?_, fun _ _ => rfl, fun _ => trivial⟩
    intro _ _ G _
    subst h0
    simp [cnt]
  · rw [if_neg h0]
    -- a use which was replaced before is replaced again
    have again : s.flag r = true → ∃ F, s.isConst v = true ∧ s.value v = some F ∧
        isConstFun s F = true := by
      intro hfl
      obtain ⟨a1, a2, G, a3, a4, a5, a6⟩ := hi.a _ hx hfl
      simp only at a2 a3 a4
      have hcl : s.opn G = false := by
        cases h : s.opn G with
        | false => rfl
        | true => exact absurd ((ho G).1 h) a4
      exact ⟨G, a2, a3, isConstFun_eq.2 ⟨(hi.d v G a3).2, a6 hcl, .inl hcl⟩⟩
    have unfl : (∀ F, s.isConst v = true → s.value v = some F → isConstFun s F = false) →
        s.flag r = false := by
      intro h
      cases hf : s.flag r with
      | false => rfl
      | true =>
        obtain ⟨F, h1, h2, h3⟩ := again hf
        rw [h F h1 h2] at h3
        cases h3
    cases hc : s.isConst v with
    | false => exact mark (unfl (by rw [hc]; intro F h; cases h)) h0
    | true =>
      cases hv : s.value v with
      | none => exact mark (unfl (by rw [hv]; intro F _ h; cases h)) h0
      | some F =>
        simp only
        by_cases hf : isConstFun s F = true
        · rw [if_pos hf]
          unfold setFlag
          split
          · rename_i hfl
            refine ⟨Mono.refl s, Nat.le_refl _, fun _ _ => rfl, ?_, fun _ _ => rfl, fun _ => trivial⟩
            intro _ _ G _
            simp [cnt, hfl]
          · rename_i hfl
            have hm : Mono s { s with flag := upd s.flag r true, opts := s.opts + 1 } := by
              refine ⟨?_, fun _ h => h, fun _ _ h => h, fun _ h => h⟩
              intro w hw
              by_cases hwv : w = r
              · subst hwv; exact upd_same _ _ _
              · show upd s.flag r true w = true
                rw [upd_other _ _ hwv]; exact hw
            refine ⟨hm, Nat.le_succ _, fun _ _ => rfl, ?_, ?_, fun _ => trivial⟩
            · intro _ h; exact absurd h (Nat.succ_ne_self _)
            · intro he
              exfalso
              have h2 : upd s.flag r true r = s.flag r := (left_same hm he).1 r hr
              rw [upd_same] at h2
              exact hfl h2.symm
        · rw [if_neg hf]
          refine mark (unfl ?_) h0
          intro G _ hG
          rw [hv] at hG
          cases hG
          simpa using hf

theorem assign_fact {st : List Nat} {i v : Nat} {s : St} :
    Fact Rl Vl Fl st (fun _ G => (st.take i).count G) (fun _ _ => True) [] s.opts s
      (assignVar st i v s) := by
  unfold assignVar
  simp only
  split
  · rename_i h0
    refine ⟨⟨fun _ h => h, fun _ h => h, fun _ _ h => h, fun _ h => h⟩, Nat.le_refl _,
      fun _ _ => rfl, ?_, fun _ _ => rfl, fun _ => trivial⟩
    intro _ _ G _
    subst h0
    simp
  · unfold markBinds
    rw [markLoop_spec]
    refine ⟨⟨fun _ h => h, fun _ h => h, fun _ _ h => h, fun _ h => h⟩, Nat.le_refl _,
      fun _ _ => rfl, ?_, fun _ _ => rfl, fun _ => trivial⟩
    intro _ _ G _
    rfl

/-- One visit of a function. -/
structure Once (Rl Vl Fl : List Nat) (st : List Nat) (F : Nat) (b : E) (s s3 : St) : Prop where
  mono : Mono s s3
  prev : ∀ G, G ∉ F :: funsOf b → s3.prev G = s.prev G
  defs : s3.defs F = 0
  i3 : left Rl Vl Fl s3 = left Rl Vl Fl s → Settled s.flag s3.prev (F :: st) b
  i2 : left Rl Vl Fl s3 = left Rl Vl Fl s → Settled s.flag s.prev (F :: st) b →
    s3.prev F = cnt s.flag (F :: st) b F
  i1 : left Rl Vl Fl s3 = left Rl Vl Fl s → Settled s.flag s.prev (F :: st) b →
    s.prev F ≤ cnt s.flag (F :: st) b F → s3.opts = 0
  zero : left Rl Vl Fl s3 = left Rl Vl Fl s → s3.opts = 0 →
    s3.prev F = cnt s.flag (F :: st) b F ∧
    ∀ G ∈ st, s3.binds G = s.binds G + cnt s.flag (F :: st) b G

theorem once_fact {st : List Nat} {F p : Nat} {b : E} {s s1 : St} (hp : p ∈ Vl)
    (hF : F ∉ st) (hFb : F ∉ funsOf b) (hr : ∀ x ∈ refsOf (F :: st) b, x.r ∈ Rl)
    (h : Fact Rl Vl Fl (F :: st) (fun fl => cnt fl (F :: st) b) (fun fl pr => Settled fl pr (F :: st) b)
      (funsOf b) 0 (openFun F p s) s1) :
    Once Rl Vl Fl st F b s (endFun F (closeFun F p s1)) := by
  have pf : Fact Rl Vl Fl (F :: st) (fun _ _ => 0) (fun _ _ => True) [] s1.opts s1 (promoteVar p s1) :=
    promote_fact hp
  generalize hs2 : promoteVar p s1 = s2 at pf
  have q : s2.binds = s1.binds ∧ s2.prev = s1.prev := by
    rw [← hs2]; unfold promoteVar; split <;> exact ⟨rfl, rfl⟩
  obtain ⟨q1, q2⟩ := q
  have hc : Congr Rl (fun fl => cnt fl (F :: st) b) (fun fl pr => Settled fl pr (F :: st) b)
    (funsOf b) := congr_of hr
  -- the last step
  have main : ∀ s3 : St, s3 = { s2 with
      opts := s3.opts, opn := upd s2.opn F false,
      prev := upd s2.prev F (s2.binds F), defs := upd s2.defs F 0 } →
      s2.opts ≤ s3.opts →
      (s3.opts = s2.opts ∨ (s2.selfs F = s2.binds F ∧ s2.prev F > s2.selfs F)) →
      Once Rl Vl Fl st F b s s3 := by
    intro s3 e hge hor
    have hm0 : Mono s (openFun F p s) := ⟨fun _ h => h, fun _ h => h, fun _ _ h => h, fun _ h => h⟩
    have hm23 : Mono s2 s3 := by
      rw [e]
      refine ⟨fun _ h => h, fun _ h => h, fun _ _ h => h, ?_⟩
      intro G h
      show upd s2.defs F 0 G = 0
      by_cases hG : G = F
      · subst hG; exact upd_same _ _ _
      · rw [upd_other _ _ hG]; exact h
    have ep : s3.prev = upd s2.prev F (s2.binds F) := by rw [e]
    have eb : s3.binds = s2.binds := by rw [e]
    have ed : s3.defs = upd s2.defs F 0 := by rw [e]
    have l0 : left Rl Vl Fl (openFun F p s) = left Rl Vl Fl s := rfl
    have l1 := left_le (Rl := Rl) (Vl := Vl) (Fl := Fl) h.mono
    have l2 := left_le (Rl := Rl) (Vl := Vl) (Fl := Fl) pf.mono
    have l3 := left_le (Rl := Rl) (Vl := Vl) (Fl := Fl) hm23
    have hpF : s1.prev F = s.prev F := h.prev F hFb
    -- the count in a quiet visit
    have key : left Rl Vl Fl s3 = left Rl Vl Fl s → s1.opts = 0 →
        s1.binds F = cnt s.flag (F :: st) b F ∧
        (∀ G ∈ st, s1.binds G = s.binds G + cnt s.flag (F :: st) b G) ∧ s2.opts = 0 := by
      intro he h0
      have c := h.cnt (by omega) h0
      refine ⟨?_, ?_, ?_⟩
      · have := c F List.mem_cons_self
        have hz : (openFun F p s).binds F = 0 := upd_same _ _ _
        rw [hz, Nat.zero_add] at this
        exact this
      · intro G hG
        have := c G (List.mem_cons_of_mem _ hG)
        have hz : (openFun F p s).binds G = s.binds G := upd_other _ _ (fun h => hF (h ▸ hG))
        rw [hz] at this
        exact this
      · have := pf.stay (by omega) trivial
        omega
    refine ⟨hm0.trans (h.mono.trans (pf.mono.trans hm23)), ?_, by rw [ed]; exact upd_same _ _ _,
      ?_, ?_, ?_, ?_⟩
    · intro G hG
      have hGF : G ≠ F := by intro hh; subst hh; exact hG List.mem_cons_self
      rw [ep, upd_other _ _ hGF, q2]
      exact h.prev G (fun hm => hG (List.mem_cons_of_mem _ hm))
    · intro he
      refine hc.t _ _ _ _ (fun r _ => rfl) ?_ (h.settle (by omega))
      intro G hG
      have hGF : G ≠ F := by intro hh; subst hh; exact hFb hG
      rw [ep, upd_other _ _ hGF, q2]
    · intro he ht
      have h0 := h.stay (by omega) ht
      obtain ⟨k1, k2, k3⟩ := key he h0
      rw [ep, upd_same, q1, k1]
    · intro he ht hle
      have h0 := h.stay (by omega) ht
      obtain ⟨k1, k2, k3⟩ := key he h0
      rcases hor with h4 | ⟨h4, h5⟩
      · omega
      · rw [q2, hpF] at h5
        rw [q1, k1] at h4
        omega
    · intro he h0
      have o := pf.opts
      obtain ⟨k1, k2, k3⟩ := key he (by omega)
      refine ⟨by rw [ep, upd_same, q1, k1], ?_⟩
      intro G hG
      rw [eb, q1]
      exact k2 G hG
  apply main
  · unfold endFun closeFun
    rw [hs2]
    simp only
    split <;> rfl
  · unfold endFun closeFun
    rw [hs2]
    simp only
    split
    · exact Nat.le_succ _
    · exact Nat.le_refl _
  · unfold endFun closeFun
    rw [hs2]
    simp only
    split
    · rename_i h; exact .inr h
    · exact .inl rfl

theorem open_opn {st : List Nat} {F p : Nat} {s : St} (ho : ∀ G, s.opn G = true ↔ G ∈ st) :
    ∀ G, (openFun F p s).opn G = true ↔ G ∈ F :: st := by
  intro G
  show upd s.opn F true G = true ↔ _
  by_cases hG : G = F
  · subst hG; simp [upd_same]
  · rw [upd_other _ _ hG, ho G]; simp [hG]

theorem open_inv {F p : Nat} {s : St} (hi : Inv R S D s) : Inv R S D (openFun F p s) := by
  refine ⟨?_, ?_, hi.c, hi.d, hi.e⟩
  · intro x hx hf
    obtain ⟨a1, a2, G, a3, a4, a5, a6⟩ := hi.a x hx hf
    refine ⟨a1, a2, G, a3, a4, a5, ?_⟩
    intro h
    have h' : upd s.opn F true G = false := h
    have hG : G ≠ F := by intro hG; subst hG; rw [upd_same] at h'; cases h'
    rw [upd_other _ _ hG] at h'
    show upd s.binds F 0 G ≤ upd s.selfs F 0 G
    rw [upd_other _ _ hG, upd_other _ _ hG]
    exact a6 h'
  · intro G h h2 h3
    have h' : upd s.opn F true G = false := h
    have hG : G ≠ F := by intro hG; subst hG; rw [upd_same] at h'; cases h'
    rw [upd_other _ _ hG] at h'
    have h3' : upd s.binds F 0 G ≤ upd s.selfs F 0 G := h3
    rw [upd_other _ _ hG, upd_other _ _ hG] at h3'
    exact hi.b G h' h2 h3'

/-- The optimizations counted in one visit. -/
theorem closeFun_opts (F p : Nat) (s1 : St) :
    (endFun F (closeFun F p s1)).opts = (closeFun F p s1).opts := rfl

theorem closeFun_defs (F p : Nat) (s1 : St) : (closeFun F p s1).defs = s1.defs := by
  unfold closeFun promoteVar
  simp only
  split <;> split <;> rfl

/-- The loop over visits of a function. -/
theorem funLoop_fact {st : List Nat} {F p : Nat} {b : E} {body : St → Option St} (hg : Glob R D)
    (hw : WFfn R S st F p b) (hR : ∀ y ∈ refsOf (F :: st) b, y ∈ R)
    (hS : ∀ y ∈ setsOf (F :: st) b, y ∈ S)
    (hb : ∀ s s1, (∀ G, s.opn G = true ↔ G ∈ F :: st) → Inv R S D s → body s = some s1 →
      Spec R S D (F :: st) (refsOf (F :: st) b) (setsOf (F :: st) b) (varsOf b) s s1)
    (hp : p ∈ Vl) (hFl : F ∈ Fl) (hFb : F ∉ funsOf b) (hr : ∀ x ∈ refsOf (F :: st) b, x.r ∈ Rl)
    (hf : ∀ s s1, (∀ G, s.opn G = true ↔ G ∈ F :: st) → Inv R S D s → body s = some s1 →
      Fact Rl Vl Fl (F :: st) (fun fl => cnt fl (F :: st) b)
        (fun fl pr => Settled fl pr (F :: st) b) (funsOf b) s.opts s s1) :
    ∀ fuel acc s s', (∀ G, s.opn G = true ↔ G ∈ st) → Inv R S D s →
      funLoop body F p fuel acc s = some s' →
      Fact Rl Vl Fl st (fun fl => cnt fl (F :: st) b)
        (fun fl pr => pr F ≤ cnt fl (F :: st) b F ∧ Settled fl pr (F :: st) b)
        (F :: funsOf b) acc s s' := by
  intro fuel
  induction fuel with
  | zero => intro acc s s' _ _ h; cases h
  | succ n ih =>
    intro acc s s' ho hi h
    rw [funLoop] at h
    cases h1 : body (openFun F p s) with
    | none => rw [h1] at h; cases h
    | some s1 =>
      rw [h1] at h
      simp only at h
      have on : Once Rl Vl Fl st F b s (endFun F (closeFun F p s1)) ∧
          (left Rl Vl Fl (endFun F (closeFun F p s1)) = left Rl Vl Fl s → s1.defs F = 0) := by
        obtain ⟨w1, -⟩ := hw
        have hi0 := open_inv (F := F) (p := p) hi
        have ho0 := open_opn (F := F) (p := p) ho
        have f0 := hf _ _ ho0 hi0 h1
        refine ⟨once_fact hp w1 hFb hr f0, ?_⟩
        intro he
        have on := once_fact hp w1 hFb hr f0
        have := (left_same on.mono he).2.2 F hFl on.defs
        exact f0.mono.defs F this
      obtain ⟨on, od⟩ := on
      have sp := once_spec hg hw hR hS ho hi (fun hi0 ho0 => hb _ _ ho0 hi0 h1)
      have hopt : (endFun F (closeFun F p s1)).opts = (closeFun F p s1).opts := rfl
      have hdef := closeFun_defs F p s1
      split at h
      · rename_i h0
        cases h
        refine ⟨⟨on.mono.flag, on.mono.const, on.mono.value, on.mono.defs⟩, ?_, on.prev, ?_, ?_, ?_⟩
        · show acc ≤ countOpts F acc _
          unfold countOpts; omega
        · intro he _
          exact (on.zero he h0).2
        · intro he _
          show countOpts F acc _ = acc
          have hd := od he
          unfold countOpts
          rw [hdef, hd, ← hopt, h0]
          simp
        · intro he
          refine ⟨?_, on.i3 he⟩
          show (endFun F (closeFun F p s1)).prev F ≤ _
          rw [(on.zero he h0).1]
          exact Nat.le_refl _
      · rename_i h0
        have I := ih _ _ _ (by rw [sp.opn]; exact ho) sp.inv h
        have hacc : acc < countOpts F acc (closeFun F p s1) := by
          unfold countOpts; omega
        have l1 := left_le (Rl := Rl) (Vl := Vl) (Fl := Fl) on.mono
        have l2 := left_le (Rl := Rl) (Vl := Vl) (Fl := Fl) I.mono
        refine ⟨on.mono.trans I.mono, by have := I.opts; omega, ?_, ?_, ?_, ?_⟩
        · intro G hG
          rw [I.prev G hG, on.prev G hG]
        · intro _ ha
          have := I.opts
          omega
        · intro he ht
          exact absurd (on.i1 (by omega) ht.2 ht.1) h0
        · intro he
          have e1 : left Rl Vl Fl (endFun F (closeFun F p s1)) = left Rl Vl Fl s := by omega
          have t := I.settle (by omega)
          have sm := (left_same on.mono e1).1
          have hc : Congr Rl (fun fl => cnt fl (F :: st) b) (fun fl pr => Settled fl pr (F :: st) b)
            (funsOf b) := congr_of hr
          refine ⟨?_, hc.t _ _ _ _ sm (fun _ _ => rfl) t.2⟩
          rw [← cnt_congr sm F b (F :: st) hr]
          exact t.1

/-- The variables and functions of an expression. -/
structure Dom (Vl Fl : List Nat) (e : E) : Prop where
  nodup : (funsOf e).Nodup
  vars : ∀ v ∈ varsOf e, v ∈ Vl
  funs : ∀ F ∈ funsOf e, F ∈ Fl

/-- Two expressions side by side. -/
theorem Dom.split {a b e : E} (h : Dom Vl Fl e) (hf : funsOf e = funsOf a ++ funsOf b)
    (hv : ∀ v, v ∈ varsOf a ∨ v ∈ varsOf b → v ∈ varsOf e) :
    Dom Vl Fl a ∧ Dom Vl Fl b ∧ ∀ G ∈ funsOf a, G ∉ funsOf b := by
  have n := h.nodup
  rw [hf, List.nodup_append] at n
  obtain ⟨n1, n2, n3⟩ := n
  refine ⟨⟨n1, fun v hm => h.vars v (hv v (.inl hm)), fun F hm => h.funs F (by rw [hf]; exact List.mem_append_left _ hm)⟩,
    ⟨n2, fun v hm => h.vars v (hv v (.inr hm)), fun F hm => h.funs F (by rw [hf]; exact List.mem_append_right _ hm)⟩, ?_⟩
  intro G h1 h2
  exact n3 G h1 G h2 rfl

theorem dom_fn {F p : Nat} {b : E} (h : Dom Vl Fl (.fn F p b)) :
    Dom Vl Fl b ∧ p ∈ Vl ∧ F ∈ Fl ∧ F ∉ funsOf b := by
  have n := h.nodup
  have n' := List.nodup_cons.1 n
  exact ⟨⟨n'.2, fun v hm => h.vars v (List.mem_cons_of_mem _ hm),
    fun G hm => h.funs G (List.mem_cons_of_mem _ hm)⟩, h.vars p List.mem_cons_self,
    h.funs F List.mem_cons_self, n'.1⟩

theorem Fact.pair {a b e : E} {st : List Nat} {s s1 s2 : St} (hd : Dom Vl Fl e)
    (hf : funsOf e = funsOf a ++ funsOf b)
    (hv : ∀ v, v ∈ varsOf a ∨ v ∈ varsOf b → v ∈ varsOf e)
    (ha : ∀ x ∈ refsOf st a, x.r ∈ Rl) (hb : ∀ x ∈ refsOf st b, x.r ∈ Rl)
    (h : Fact Rl Vl Fl st (fun fl => Clos.cnt fl st a) (fun fl pr => Settled fl pr st a) (funsOf a)
      s.opts s s1)
    (k : Fact Rl Vl Fl st (fun fl => Clos.cnt fl st b) (fun fl pr => Settled fl pr st b) (funsOf b)
      s1.opts s1 s2) :
    Fact Rl Vl Fl st (fun fl G => Clos.cnt fl st a G + Clos.cnt fl st b G)
      (fun fl pr => Settled fl pr st a ∧ Settled fl pr st b) (funsOf a ++ funsOf b) s.opts s s2 :=
  h.comp k (congr_of ha) (congr_of hb) (hd.split hf hv).2.2

theorem visit_fact (hg : Glob R D) (hRl : ∀ x ∈ R, x.r ∈ Rl) (fuel : Nat) :
    ∀ (e : E) (st : List Nat) (s s' : St),
    WF R S D st e → Dom Vl Fl e → (∀ G, s.opn G = true ↔ G ∈ st) → Inv R S D s →
    visit fuel st e s = some s' →
    Fact Rl Vl Fl st (fun fl => cnt fl st e) (fun fl pr => Settled fl pr st e) (funsOf e)
      s.opts s s' := by
  have rr : ∀ (e : E) (st : List Nat), WF R S D st e → ∀ x ∈ refsOf st e, x.r ∈ Rl :=
    fun e st hw x hx => hRl x (WF_refs e st hw x hx)
  intro e
  induction e with
  | num n =>
    intro st s s' _ _ _ hi h
    cases h
    exact Fact.plain (Mono.refl _) (Nat.le_refl _) rfl rfl (fun _ => rfl)
  | ref r i v =>
    intro st s s' hw _ ho hi h
    cases h
    exact identifier_fact ho hi hw (hRl _ hw)
  | set i v e ih =>
    intro st s s' hw hd ho hi h
    obtain ⟨s1, h1, h2⟩ := andThen_some h
    cases h2
    have a := ih st s s1 hw.2 ⟨hd.nodup, hd.vars, hd.funs⟩ ho hi h1
    have b := a.comp (assign_fact (i := i) (v := v)) (congr_of (rr e st hw.2))
      ⟨fun _ _ _ _ => rfl, fun _ _ _ _ _ _ _ => trivial⟩ (fun _ _ h => by cases h)
    exact b.conv (fun _ _ => rfl) (fun fl pr => ⟨fun h => h.1, fun h => ⟨h, trivial⟩⟩)
      (by rw [List.append_nil]; exact fun G hG => hG)
  | add a b iha ihb | seq a b iha ihb | whl a b iha ihb | call a b iha ihb =>
    intro st s s' hw hd ho hi h
    obtain ⟨s1, h1, h2⟩ := andThen_some h
    have hv := fun v (hm : v ∈ varsOf a ∨ v ∈ varsOf b) => List.mem_append.2 hm
    obtain ⟨d1, d2, d3⟩ := hd.split (a := a) (b := b) rfl hv
    have sp := visit_spec hg fuel a st s s1 hw.1 ho hi h1
    exact Fact.pair hd rfl hv (rr a st hw.1) (rr b st hw.2) (iha st s s1 hw.1 d1 ho hi h1)
      (ihb st s1 s' hw.2 d2 (by rw [sp.opn]; exact ho) sp.inv h2)
  | ite c a b ihc iha ihb =>
    intro st s s' hw hd ho hi h
    obtain ⟨s1, h1, h2⟩ := andThen_some h
    obtain ⟨s2, h2, h3⟩ := andThen_some h2
    have hv : ∀ v, v ∈ varsOf c ∨ v ∈ varsOf (.seq a b) → v ∈ varsOf (.ite c a b) :=
      fun v hm => List.mem_append.2 hm
    have hv2 := fun v (hm : v ∈ varsOf a ∨ v ∈ varsOf b) =>
      (List.mem_append.2 hm : v ∈ varsOf (.seq a b))
    obtain ⟨d1, d2, d3⟩ := hd.split (a := c) (b := .seq a b) rfl hv
    obtain ⟨d4, d5, d6⟩ := d2.split (a := a) (b := b) rfl hv2
    have sp := visit_spec hg fuel c st s s1 hw.1 ho hi h1
    have ho1 : ∀ G, s1.opn G = true ↔ G ∈ st := by rw [sp.opn]; exact ho
    have sp2 := visit_spec hg fuel a st s1 s2 hw.2.1 ho1 sp.inv h2
    have k := Fact.pair d2 rfl hv2 (rr a st hw.2.1) (rr b st hw.2.2)
      (iha st s1 s2 hw.2.1 d4 ho1 sp.inv h2)
      (ihb st s2 s' hw.2.2 d5 (by rw [sp2.opn]; exact ho1) sp2.inv h3)
    exact Fact.pair (b := .seq a b) hd rfl hv (rr c st hw.1) (rr (.seq a b) st hw.2)
      (ihc st s s1 hw.1 d1 ho hi h1) k
  | fn F p b ih =>
    intro st s s' hw hd ho hi h
    obtain ⟨d1, d2, d3, d4⟩ := dom_fn hd
    exact funLoop_fact hg hw.1 (WF_refs b _ hw.2) (WF_sets b _ hw.2)
      (fun s s1 ho hi h => visit_spec hg fuel b _ s s1 hw.2 ho hi h) d2 d3 d4 (rr b _ hw.2)
      (fun s s1 ho hi h => ih _ s s1 hw.2 d1 ho hi h) _ _ _ _ ho hi h
  | letv v e rest ihe ihr =>
    intro st s s' hw hd ho hi h
    have hw' := hw
    obtain ⟨w1, w2, w3, w4, w5⟩ := hw
    obtain ⟨s1, h1, h2⟩ := andThen_some h
    obtain ⟨s2, h4, h3⟩ := andThen_some h2
    cases h3
    have hv : ∀ w, w ∈ varsOf e ∨ w ∈ varsOf rest → w ∈ varsOf (.letv v e rest) := by
      intro w hm; simp only [varsOf, List.mem_cons, List.mem_append]; grind
    obtain ⟨d1, d2, d3⟩ := hd.split (a := e) (b := rest) rfl hv
    have hvm : v ∈ Vl := hd.vars v (by simp [varsOf])
    have r := reset_spec (st := st) (v := v) hi
    have a := visit_spec hg fuel e st (resetVar v s) s1 w4 ho r.inv h1
    have ho1 : ∀ G, s1.opn G = true ↔ G ∈ st := by rw [a.opn]; exact ho
    have hdf : ∀ F, e.fun? = some F → s1.defs F = 0 := by
      intro F hF
      cases e with
      | fn G p b =>
        cases hF
        exact funLoop_defs _ _ _ h1
      | _ => cases hF
    have b := value_spec (st := st) a.inv w1 hdf
    have fr : Fact Rl Vl Fl st (fun _ _ => 0) (fun _ _ => True) [] s.opts s (resetVar v s) :=
      Fact.plain r.mono (Nat.le_refl _) rfl rfl (fun _ => rfl)
    have fa := ihe st (resetVar v s) s1 w4 d1 ho r.inv h1
    have fb : Fact Rl Vl Fl st (fun _ _ => 0) (fun _ _ => True) [] s1.opts s1 (setValue v e.fun? s1) :=
      Fact.plain b.mono (Nat.le_refl _) rfl rfl (fun _ => rfl)
    have fc := ihr st (setValue v e.fun? s1) s2 w5 d2 ho1 b.inv h4
    have fd : Fact Rl Vl Fl st (fun _ _ => 0) (fun _ _ => True) [] s2.opts s2 (promoteVar v s2) :=
      promote_fact hvm
    have k1 := congr_of (Rl := Rl) (rr e st w4)
    have k2 := congr_of (Rl := Rl) (rr rest st w5)
    have f1 := fc.comp fd k2 congr_plain (fun _ _ h => by cases h)
    have f2 := fb.comp f1 congr_plain (k2.comp congr_plain) (fun _ h => by cases h)
    have f3 := fa.comp f2 k1 (congr_plain.comp (k2.comp congr_plain)) (by
      intro G hG
      simpa using d3 G hG)
    have f4 := fr.comp f3 congr_plain (k1.comp (congr_plain.comp (k2.comp congr_plain)))
      (fun _ h => by cases h)
    refine f4.conv (fun fl G => ?_) (fun fl pr => ?_) (fun G hG => ?_)
    · simp only [cnt]; omega
    · simp only [Settled]; grind
    · simpa [funsOf] using hG
  | letf v F p b rest ihb ihr =>
    intro st s s' hw hd ho hi h
    obtain ⟨w1, w2, w3, w4, w5⟩ := hw
    obtain ⟨s1, h1, h2⟩ := andThen_some h
    have hv : ∀ w, w ∈ varsOf (.fn F p b) ∨ w ∈ varsOf rest → w ∈ varsOf (.letf v F p b rest) := by
      intro w hm; simp only [varsOf, List.mem_cons, List.mem_append] at hm ⊢; grind
    obtain ⟨d1, d2, d3⟩ := hd.split (a := .fn F p b) (b := rest) rfl hv
    obtain ⟨e1, e2, e3, e4⟩ := dom_fn d1
    obtain ⟨ci, cm⟩ := const_inv (s' := { s with isConst := upd s.isConst v true }) hi w2 rfl
    obtain ⟨a, hdf⟩ := funLoop_spec hg w3 (WF_refs b _ w4) (WF_sets b _ w4)
      (fun s s1 ho hi h => visit_spec hg fuel b _ s s1 w4 ho hi h) fuel s.opts
      { s with isConst := upd s.isConst v true } s1 ho ci h1
    have ho1 : ∀ G, s1.opn G = true ↔ G ∈ st := by rw [a.opn]; exact ho
    have bs := value_spec (st := st) (f := some F) a.inv w1 (fun G hG => by cases hG; exact hdf)
    have fr : Fact Rl Vl Fl st (fun _ _ => 0) (fun _ _ => True) [] s.opts s
        { s with isConst := upd s.isConst v true } :=
      Fact.plain cm (Nat.le_refl _) rfl rfl (fun _ => rfl)
    have fa := funLoop_fact hg w3 (WF_refs b _ w4) (WF_sets b _ w4)
      (fun s s1 ho hi h => visit_spec hg fuel b _ s s1 w4 ho hi h) e2 e3 e4 (rr b _ w4)
      (fun s s1 ho hi h => ihb _ s s1 w4 e1 ho hi h) fuel s.opts
      { s with isConst := upd s.isConst v true } s1 ho ci h1
    have fb : Fact Rl Vl Fl st (fun _ _ => 0) (fun _ _ => True) [] s1.opts s1 (setValue v (some F) s1) :=
      Fact.plain bs.mono (Nat.le_refl _) rfl rfl (fun _ => rfl)
    have fc := ihr st (setValue v (some F) s1) s' w5 d2 ho1 bs.inv h2
    have k1 : Congr Rl (fun fl => cnt fl (F :: st) b)
        (fun fl pr => pr F ≤ cnt fl (F :: st) b F ∧ Settled fl pr (F :: st) b) (F :: funsOf b) :=
      congr_of (e := .fn F p b) (st := st) (rr b _ w4)
    have k2 := congr_of (Rl := Rl) (rr rest st w5)
    have f2 := fb.comp fc congr_plain k2 (fun _ h => by cases h)
    have f3 := fa.comp (s := { s with isConst := upd s.isConst v true }) f2 k1 (congr_plain.comp k2)
      (fun G hG => by simpa using d3 G hG)
    have f4 := fr.comp f3 congr_plain (k1.comp (congr_plain.comp k2)) (fun _ h => by cases h)
    refine f4.conv (fun fl G => ?_) (fun fl pr => ?_) (fun G hG => ?_)
    · simp only [cnt]; omega
    · simp only [Settled]; grind
    · simpa [funsOf] using hG

end

/-! ## More fuel -/

theorem funLoop_fuel {body body' : St → Option St} {F p : Nat}
    (hb : ∀ s s1, body s = some s1 → body' s = some s1) :
    ∀ n n' acc s s', n ≤ n' → funLoop body F p n acc s = some s' →
      funLoop body' F p n' acc s = some s' := by
  intro n
  induction n with
  | zero => intro n' acc s s' _ h; cases h
  | succ n ih =>
    intro n' acc s s' hn h
    obtain ⟨m, rfl⟩ : ∃ m, n' = m + 1 := ⟨n' - 1, by omega⟩
    rw [funLoop] at h ⊢
    cases h1 : body (openFun F p s) with
    | none => rw [h1] at h; cases h
    | some s1 =>
      rw [h1] at h
      rw [hb _ _ h1]
      simp only at h ⊢
      split at h
      · rename_i h0; rw [if_pos h0]; exact h
      · rename_i h0; rw [if_neg h0]; exact ih m _ _ _ (by omega) h

theorem andThen_fuel {a b a' b' : St → Option St} {s s' : St}
    (ha : ∀ s s1, a s = some s1 → a' s = some s1) (hb : ∀ s s1, b s = some s1 → b' s = some s1)
    (h : andThen a b s = some s') : andThen a' b' s = some s' := by
  obtain ⟨s1, h1, h2⟩ := andThen_some h
  unfold andThen
  rw [ha _ _ h1]
  exact hb _ _ h2

theorem visit_fuel {n n' : Nat} (hn : n ≤ n') : ∀ (e : E) (st : List Nat) (s s' : St),
    visit n st e s = some s' → visit n' st e s = some s' := by
  intro e
  induction e with
  | num k => intro st s s' h; exact h
  | ref r i v => intro st s s' h; exact h
  | set i v e ih => intro st s s' h; exact andThen_fuel (ih st) (fun _ _ h => h) h
  | add a b iha ihb | seq a b iha ihb | whl a b iha ihb | call a b iha ihb =>
    intro st s s' h; exact andThen_fuel (iha st) (ihb st) h
  | ite c a b ihc iha ihb =>
    intro st s s' h
    exact andThen_fuel (ihc st) (fun _ _ h => andThen_fuel (iha st) (ihb st) h) h
  | fn F p b ih =>
    intro st s s' h
    exact funLoop_fuel (ih (F :: st)) n n' _ _ _ hn h
  | letv v e rest ihe ihr =>
    intro st s s' h
    exact andThen_fuel (ihe st)
      (fun _ _ h => andThen_fuel (ihr st) (fun _ _ h => h) h) h
  | letf v F p b rest ihb ihr =>
    intro st s s' h
    exact andThen_fuel (fun _ _ h => funLoop_fuel (ihb (F :: st)) n n' _ _ _ hn h)
      (fun _ _ h => ihr st _ _ h) h

theorem andThen_ok {a b : St → Option St} {s s1 s2 : St} (h : a s = some s1) (k : b s1 = some s2) :
    andThen a b s = some s2 := by
  unfold andThen; rw [h]; exact k

/-! ## The loops end -/

section
variable {Rl Vl Fl : List Nat} {R : List Use} {S : List Asg} {D : Nat → Option Nat}

/-- How far the counters of a function are from those of the visit before. -/
noncomputable def rank (fl : Nat → Bool) (pr : Nat → Nat) (st : List Nat) (F : Nat) (b : E) : Nat :=
  open Classical in
  if Settled fl pr (F :: st) b then
    (if pr F ≤ cnt fl (F :: st) b F then 0 else 1)
  else 2

theorem rank_congr {fl fl' : Nat → Bool} {pr : Nat → Nat} {st : List Nat} {F : Nat} {b : E}
    (hr : ∀ x ∈ refsOf (F :: st) b, x.r ∈ Rl) (h : ∀ r ∈ Rl, fl r = fl' r) :
    rank fl pr st F b = rank fl' pr st F b := by
  have e : Settled fl pr (F :: st) b ↔ Settled fl' pr (F :: st) b :=
    ⟨settled_congr h b _ hr (fun _ _ => rfl),
     settled_congr (fun r hr => (h r hr).symm) b _ hr (fun _ _ => rfl)⟩
  unfold rank
  rw [cnt_congr h F b _ hr]
  by_cases hs : Settled fl pr (F :: st) b
  · rw [if_pos hs, if_pos (e.1 hs)]
  · rw [if_neg hs, if_neg (fun k => hs (e.2 k))]

theorem funLoop_ends {st : List Nat} {F p : Nat} {b : E} (hg : Glob R D)
    (hRl : ∀ x ∈ R, x.r ∈ Rl) (hw : WF R S D st (.fn F p b)) (hd : Dom Vl Fl (.fn F p b))
    (hb : ∀ s, (∀ G, s.opn G = true ↔ G ∈ F :: st) → Inv R S D s →
      ∃ n s1, visit n (F :: st) b s = some s1) :
    ∀ k acc s, 3 * left Rl Vl Fl s + rank s.flag s.prev st F b ≤ k →
      (∀ G, s.opn G = true ↔ G ∈ st) → Inv R S D s →
      ∃ n s', funLoop (visit n (F :: st) b) F p n acc s = some s' := by
  obtain ⟨d1, d2, d3, d4⟩ := dom_fn hd
  have hr : ∀ x ∈ refsOf (F :: st) b, x.r ∈ Rl := fun x hx => hRl x (WF_refs b _ hw.2 x hx)
  intro k
  induction k with
  | zero =>
    intro acc s hk ho hi
    obtain ⟨n, s1, h1⟩ := hb _ (open_opn ho) (open_inv hi)
    have f0 := visit_fact (Vl := Vl) (Fl := Fl) hg hRl n b (F :: st) _ s1 hw.2 d1 (open_opn ho) (open_inv hi) h1
    have on := once_fact (Rl := Rl) d2 hw.1.1 d4 hr f0
    have l := left_le (Rl := Rl) (Vl := Vl) (Fl := Fl) on.mono
    have r0 : rank s.flag s.prev st F b = 0 := by omega
    have h0 : (endFun F (closeFun F p s1)).opts = 0 := by
      unfold rank at r0
      split at r0
      · rename_i ht
        split at r0
        · rename_i hle; exact on.i1 (by omega) ht hle
        · cases r0
      · cases r0
    refine ⟨n + 1, { endFun F (closeFun F p s1) with opts := countOpts F acc (closeFun F p s1) }, ?_⟩
    rw [funLoop, visit_fuel (Nat.le_succ n) b _ _ _ h1]
    simp only
    rw [if_pos h0]
  | succ k ih =>
    intro acc s hk ho hi
    obtain ⟨n, s1, h1⟩ := hb _ (open_opn ho) (open_inv hi)
    have f0 := visit_fact (Vl := Vl) (Fl := Fl) hg hRl n b (F :: st) _ s1 hw.2 d1 (open_opn ho) (open_inv hi) h1
    have on := once_fact (Rl := Rl) d2 hw.1.1 d4 hr f0
    have l := left_le (Rl := Rl) (Vl := Vl) (Fl := Fl) on.mono
    have sp := once_spec hg hw.1 (WF_refs b _ hw.2) (WF_sets b _ hw.2) ho hi
      (fun hi0 ho0 => visit_spec hg n b _ _ s1 hw.2 ho0 hi0 h1)
    by_cases h0 : (endFun F (closeFun F p s1)).opts = 0
    · refine ⟨n + 1, { endFun F (closeFun F p s1) with opts := countOpts F acc (closeFun F p s1) }, ?_⟩
      rw [funLoop, visit_fuel (Nat.le_succ n) b _ _ _ h1]
      simp only
      rw [if_pos h0]
    · have dec : 3 * left Rl Vl Fl (endFun F (closeFun F p s1)) +
          rank (endFun F (closeFun F p s1)).flag (endFun F (closeFun F p s1)).prev st F b ≤ k := by
        have r2 : rank (endFun F (closeFun F p s1)).flag (endFun F (closeFun F p s1)).prev st F b ≤ 2 := by
          unfold rank; split
          · split <;> omega
          · omega
        by_cases he : left Rl Vl Fl (endFun F (closeFun F p s1)) = left Rl Vl Fl s
        · rw [rank_congr hr (left_same on.mono he).1]
          have t3 := on.i3 he
          by_cases ht : Settled s.flag s.prev (F :: st) b
          · have e2 := on.i2 he ht
            have z : rank s.flag (endFun F (closeFun F p s1)).prev st F b = 0 := by
              unfold rank
              rw [if_pos t3, if_pos (Nat.le_of_eq e2)]
            have nz : rank s.flag s.prev st F b ≠ 0 := by
              unfold rank
              rw [if_pos ht]
              split
              · rename_i hle; exact absurd (on.i1 he ht hle) h0
              · exact Nat.one_ne_zero
            omega
          · have z : rank s.flag (endFun F (closeFun F p s1)).prev st F b ≤ 1 := by
              unfold rank
              rw [if_pos t3]
              split <;> omega
            have nz : rank s.flag s.prev st F b = 2 := by
              unfold rank
              rw [if_neg ht]
            omega
        · omega
      obtain ⟨m, s', h2⟩ := ih (countOpts F acc (closeFun F p s1)) _ dec (by rw [sp.opn]; exact ho) sp.inv
      refine ⟨max n m + 1, s', ?_⟩
      rw [funLoop, visit_fuel (by omega) b _ _ _ h1]
      simp only
      rw [if_neg h0]
      exact funLoop_fuel (fun s s1 h => visit_fuel (by omega) b _ s s1 h) m _ _ _ _ (by omega) h2

theorem visit_ends (hg : Glob R D) (hRl : ∀ x ∈ R, x.r ∈ Rl) :
    ∀ (e : E) (st : List Nat) (s : St), WF R S D st e → Dom Vl Fl e →
      (∀ G, s.opn G = true ↔ G ∈ st) → Inv R S D s → ∃ n s', visit n st e s = some s' := by
  intro e
  induction e with
  | num n => intro st s _ _ _ _; exact ⟨0, s, rfl⟩
  | ref r i v => intro st s _ _ _ _; exact ⟨0, _, rfl⟩
  | set i v e ih =>
    intro st s hw hd ho hi
    obtain ⟨n, s1, h1⟩ := ih st s hw.2 ⟨hd.nodup, hd.vars, hd.funs⟩ ho hi
    exact ⟨n, _, andThen_ok h1 rfl⟩
  | add a b iha ihb | seq a b iha ihb | whl a b iha ihb | call a b iha ihb =>
    intro st s hw hd ho hi
    obtain ⟨d1, d2, -⟩ := hd.split (a := a) (b := b) rfl (fun v hm => List.mem_append.2 hm)
    obtain ⟨n, s1, h1⟩ := iha st s hw.1 d1 ho hi
    have sp := visit_spec hg n a st s s1 hw.1 ho hi h1
    obtain ⟨m, s2, h2⟩ := ihb st s1 hw.2 d2 (by rw [sp.opn]; exact ho) sp.inv
    exact ⟨max n m, s2, andThen_ok (visit_fuel (by omega) a _ _ _ h1) (visit_fuel (by omega) b _ _ _ h2)⟩
  | ite c a b ihc iha ihb =>
    intro st s hw hd ho hi
    obtain ⟨d1, d2, -⟩ := hd.split (a := c) (b := .seq a b) rfl (fun v hm => List.mem_append.2 hm)
    obtain ⟨d4, d5, -⟩ := d2.split (a := a) (b := b) rfl (fun v hm => List.mem_append.2 hm)
    obtain ⟨n, s1, h1⟩ := ihc st s hw.1 d1 ho hi
    have sp := visit_spec hg n c st s s1 hw.1 ho hi h1
    have ho1 : ∀ G, s1.opn G = true ↔ G ∈ st := by rw [sp.opn]; exact ho
    obtain ⟨m, s2, h2⟩ := iha st s1 hw.2.1 d4 ho1 sp.inv
    have sp2 := visit_spec hg m a st s1 s2 hw.2.1 ho1 sp.inv h2
    obtain ⟨l, s3, h3⟩ := ihb st s2 hw.2.2 d5 (by rw [sp2.opn]; exact ho1) sp2.inv
    exact ⟨max n (max m l), s3, andThen_ok (visit_fuel (by omega) c _ _ _ h1)
      (andThen_ok (visit_fuel (by omega) a _ _ _ h2) (visit_fuel (by omega) b _ _ _ h3))⟩
  | fn F p b ih =>
    intro st s hw hd ho hi
    exact funLoop_ends hg hRl hw hd (fun s ho hi => ih _ s hw.2 (dom_fn hd).1 ho hi) _ _ s
      (Nat.le_refl _) ho hi
  | letv v e rest ihe ihr =>
    intro st s hw hd ho hi
    obtain ⟨w1, w2, w3, w4, w5⟩ := hw
    obtain ⟨d1, d2, -⟩ := hd.split (a := e) (b := rest) rfl (by
      intro w hm; simp only [varsOf, List.mem_cons, List.mem_append]; grind)
    have r := reset_spec (st := st) (v := v) hi
    obtain ⟨n, s1, h1⟩ := ihe st (resetVar v s) w4 d1 ho r.inv
    have a := visit_spec hg n e st (resetVar v s) s1 w4 ho r.inv h1
    have ho1 : ∀ G, s1.opn G = true ↔ G ∈ st := by rw [a.opn]; exact ho
    have hdf : ∀ F, e.fun? = some F → s1.defs F = 0 := by
      intro F hF
      cases e with
      | fn G p b =>
        cases hF
        exact funLoop_defs _ _ _ h1
      | _ => cases hF
    have b := value_spec (st := st) a.inv w1 hdf
    obtain ⟨m, s2, h2⟩ := ihr st (setValue v e.fun? s1) w5 d2 ho1 b.inv
    exact ⟨max n m, _, andThen_ok (visit_fuel (by omega) e _ _ _ h1)
      (andThen_ok (visit_fuel (by omega) rest _ _ _ h2) rfl)⟩
  | letf v F p b rest ihb ihr =>
    intro st s hw hd ho hi
    obtain ⟨w1, w2, w3, w4, w5⟩ := hw
    obtain ⟨d1, d2, -⟩ := hd.split (a := .fn F p b) (b := rest) rfl (by
      intro w hm; simp only [varsOf, List.mem_cons, List.mem_append] at hm ⊢; grind)
    obtain ⟨ci, cm⟩ := const_inv (s' := { s with isConst := upd s.isConst v true }) hi w2 rfl
    obtain ⟨n, s1, h1⟩ := funLoop_ends (F := F) (p := p) hg hRl ⟨w3, w4⟩ d1
      (fun s ho hi => ihb _ s w4 (dom_fn d1).1 ho hi) _ s.opts
      { s with isConst := upd s.isConst v true } (Nat.le_refl _) ho ci
    obtain ⟨a, hdf⟩ := funLoop_spec hg w3 (WF_refs b _ w4) (WF_sets b _ w4)
      (fun s s1 ho hi h => visit_spec hg n b _ s s1 w4 ho hi h) n s.opts
      { s with isConst := upd s.isConst v true } s1 ho ci h1
    have ho1 : ∀ G, s1.opn G = true ↔ G ∈ st := by rw [a.opn]; exact ho
    have bs := value_spec (st := st) (f := some F) a.inv w1 (fun G hG => by cases hG; exact hdf)
    obtain ⟨m, s2, h2⟩ := ihr st (setValue v (some F) s1) w5 d2 ho1 bs.inv
    exact ⟨max n m, s2, andThen_ok
      (funLoop_fuel (fun s s1 h => visit_fuel (by omega) b _ s s1 h) n _ _ _ _ (by omega) h1)
      (visit_fuel (by omega) rest _ _ _ h2)⟩

theorem passes_fuel {P : E} : ∀ n m n' m' s s', n ≤ n' → m ≤ m' → passes P n m s = some s' →
    passes P n' m' s = some s' := by
  intro n m
  induction m with
  | zero => intro n' m' s s' _ _ h; cases h
  | succ m ih =>
    intro n' m' s s' hn hm h
    obtain ⟨l, rfl⟩ : ∃ l, m' = l + 1 := ⟨m' - 1, by omega⟩
    rw [passes] at h ⊢
    cases h1 : visit n [] P s with
    | none => rw [h1] at h; cases h
    | some s1 =>
      rw [h1] at h
      rw [visit_fuel hn P _ _ _ h1]
      simp only at h ⊢
      split at h
      · rename_i h0; rw [if_pos h0]; exact ih n' l _ _ hn (by omega) h
      · rename_i h0; rw [if_neg h0]; exact h

theorem passes_ends (hg : Glob R D) (hRl : ∀ x ∈ R, x.r ∈ Rl) {P : E} (hw : WF R S D [] P)
    (hd : Dom Vl Fl P) : ∀ k s,
    2 * left Rl Vl Fl s + (open Classical in if Settled s.flag s.prev [] P then 0 else 1) < k →
    (∀ G, s.opn G = true ↔ G ∈ []) → Inv R S D s → ∃ n s', passes P n n s = some s' := by
  have hr : ∀ x ∈ refsOf [] P, x.r ∈ Rl := fun x hx => hRl x (WF_refs P _ hw x hx)
  intro k
  induction k with
  | zero => intro s hk; omega
  | succ k ih =>
    intro s hk ho hi
    obtain ⟨n, s1, h1⟩ := visit_ends (Vl := Vl) (Fl := Fl) hg hRl P [] s hw hd ho hi
    have f := visit_fact (Vl := Vl) (Fl := Fl) hg hRl n P [] s s1 hw hd ho hi h1
    have sp := visit_spec hg n P [] s s1 hw ho hi h1
    have l := left_le (Rl := Rl) (Vl := Vl) (Fl := Fl) f.mono
    by_cases h0 : s1.opts > s.opts
    · have dec : 2 * left Rl Vl Fl s1 +
          (open Classical in if Settled s1.flag s1.prev [] P then 0 else 1) < k := by
        by_cases he : left Rl Vl Fl s1 = left Rl Vl Fl s
        · have t := settled_congr (fun r hm => ((left_same f.mono he).1 r hm).symm) P [] hr
            (fun _ _ => rfl) (f.settle he)
          rw [if_pos t]
          have nt : ¬ Settled s.flag s.prev [] P := fun ht => by
            have := f.stay he ht
            omega
          rw [if_neg nt] at hk
          omega
        · split <;> split at hk <;> omega
      obtain ⟨m, s', h2⟩ := ih s1 dec (by rw [sp.opn]; exact ho) sp.inv
      refine ⟨max n m + 1, s', ?_⟩
      rw [passes, visit_fuel (by omega) P _ _ _ h1]
      simp only
      rw [if_pos h0]
      exact passes_fuel m m _ _ _ _ (by omega) (by omega) h2
    · refine ⟨n + 1, s1, ?_⟩
      rw [passes, visit_fuel (Nat.le_succ n) P _ _ _ h1]
      simp only
      rw [if_neg h0]

/-- The optimizer ends for every program whose names were resolved, and more
    passes do not change what it finds. -/
theorem optimize_ends {P : E} (h : Resolved P) :
    ∃ s n, ∀ m, n ≤ m → optimize m P = some s := by
  obtain ⟨hw, hg⟩ := wf_init h
  obtain ⟨n, s, h1⟩ := passes_ends (Vl := varsOf P) (Fl := funsOf P) hg
    (fun x hx => List.mem_map_of_mem (f := Use.r) hx) hw
    ⟨h.funs, fun _ h => h, fun _ h => h⟩ _ St.init (Nat.lt_succ_self _) (by simp [St.init]) init_inv
  exact ⟨s, n, fun m hm => passes_fuel n n m m _ _ hm hm h1⟩

end

end Verif.Clos
