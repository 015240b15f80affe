import Verif.Props.C48

/-
C62: a caller finds its registers where they were, and no two frames share slots.
-/
namespace Verif.Stack

def Fr.regs : Fr → Nat
  | .plain _ _ n => n
  | .gen _ n => n

/-- The frame `f` is above `f'`: they are on different stack objects, or all slots of `f'` (three before the registers and one after them) are below
those of `f`. -/
def Apart (f f' : Fr) : Prop := f.place.1 ≠ f'.place.1 ∨ f'.place.2 + f'.regs + 1 + 3 ≤ f.place.2

/-- All slots of the frame are on its stack object, above slot 0. -/
def Inside (h : Nat → Option Obj) (f : Fr) : Prop := ∃ o, h f.place.1 = some o ∧ 4 ≤ f.place.2 ∧ f.place.2 + f.regs + 1 ≤ o.size ∧ o.size ≤ o.cap

/-- The full claim: the context refers to the registers of the topmost frame, frames do not overlap, and generators which wait are not touched. -/
def C62_full (c : Ctx) (sp : Spec) : Prop :=
  (match sp.frames with
    | [] => c.cur = none
    | f :: _ => c.cur = some f.place.1 ∧ c.regs = f.place.2) ∧
  sp.frames.Pairwise Apart ∧ (∀ f ∈ sp.frames, Inside c.heap f) ∧
  (∀ r n, sp.susp r = some n → (∃ l, c.heap r = some ⟨true, n + 5, l, [.frame n]⟩) ∧ ∀ f ∈ sp.frames, f.place.1 ≠ r)

theorem layout {h : Nat → Option Obj} {ns : List Nat} {its : List (List Item)} {fs : List Fr} {g : Cfg} (hc : Chain g h ns its)
    (hf : allSpots ns its = fs.map Fr.spot) (hg : ∀ r n, Fr.gen r n ∈ fs → IsGen h r n) (hd : (fs.filterMap Fr.id?).Nodup) :
    fs.Pairwise Apart ∧ (∀ f ∈ fs, Inside h f) ∧ ∀ j b n, Fr.plain j b n ∈ fs → j ∈ ns := by
  induction hc generalizing fs with
  | nil =>
    cases fs with
    | nil => exact ⟨.nil, by simp, by simp⟩
    | cons => simp [allSpots] at hf
  | cons i l0 ns its hi hn hs hc ih =>
    have hgi : ∀ r n, IsGen h r n → r ≠ i ∧ r ∉ ns := fun r n hr => by
      refine ⟨fun e => ?_, hc.not_gen hr⟩
      obtain ⟨q, hq⟩ := hr
      rw [e, hi] at hq
      cases hq
    have key : ∀ (l : List Item) (fs : List Fr), sizes l ≤ sizes l0 → spots i l ++ allSpots ns its = fs.map Fr.spot → (∀ r n, Fr.gen r n ∈ fs → IsGen h r n) →
        (fs.filterMap Fr.id?).Nodup →
        fs.Pairwise Apart ∧ (∀ f ∈ fs, Inside h f) ∧ ∀ j b n, Fr.plain j b n ∈ fs → (j = i ∧ b + n ≤ sizes l) ∨ j ∈ ns := by
      intro l
      induction l with
      | nil =>
        intro fs _ hf hg hd
        obtain ⟨h1, h2, h3⟩ := ih (fs := fs) hf hg hd
        exact ⟨h1, h2, fun j b n hj => .inr (h3 j b n hj)⟩
      | cons x l ihl =>
        intro fs hl hf hg hd
        cases fs with
        | nil => cases x <;> simp [spots] at hf
        | cons f fs =>
          cases x with
          | frame n =>
            simp only [spots, List.cons_append, List.map_cons, List.cons.injEq] at hf
            cases f with
            | gen r m => have := hf.1; simp [Fr.spot, Fr.item] at this
            | plain i' b m =>
              have e := hf.1
              simp only [Fr.spot, Fr.item, Fr.place, Prod.mk.injEq, Item.frame.injEq] at e
              obtain ⟨rfl, rfl, rfl⟩ := e
              simp only [sizes, Item.size] at hl
              obtain ⟨h1, h2, h3⟩ := ihl fs (by omega) hf.2 (fun r n hr => hg r n (by simp [hr])) hd
              refine ⟨List.pairwise_cons.2 ⟨fun f' hf' => ?_, h1⟩, fun f' hf' => ?_, fun j b m hj => ?_⟩
              · cases f' with
                | gen r m => exact .inl fun e => (hgi r m (hg r m (by simp [hf']))).1 e.symm
                | plain j b m =>
                  rcases h3 j b m hf' with ⟨rfl, hb⟩ | hj
                  · exact .inr (by simp only [Fr.place, Fr.regs]; omega)
                  · exact .inl fun e => hn (by rw [show i = j from e]; exact hj)
              · rcases List.mem_cons.1 hf' with rfl | hf'
                · refine ⟨_, hi, ?_, ?_, ?_⟩ <;> simp only [Fr.place, Fr.regs, Obj.size] <;> omega
                · exact h2 f' hf'
              · rcases List.mem_cons.1 hj with e | hj
                · cases e
                  exact .inl ⟨rfl, by simp only [sizes, Item.size]; omega⟩
                · rcases h3 j b m hj with ⟨rfl, hb⟩ | hj
                  · exact .inl ⟨rfl, by simp only [sizes]; omega⟩
                  · exact .inr hj
          | ptr r =>
            simp only [spots, List.cons_append, List.map_cons, List.cons.injEq] at hf
            cases f with
            | plain i b m => have := hf.1; simp [Fr.spot, Fr.item] at this
            | gen r' m =>
              have e := hf.1
              simp only [Fr.spot, Fr.item, Fr.place, Prod.mk.injEq, Item.ptr.injEq] at e
              obtain ⟨rfl, -, -⟩ := e
              simp only [sizes, Item.size] at hl
              have hd' : r ∉ fs.filterMap Fr.id? ∧ (fs.filterMap Fr.id?).Nodup := List.nodup_cons.1 hd
              have hgr := hg r m (by simp)
              obtain ⟨h1, h2, h3⟩ := ihl fs (by omega) hf.2 (fun r n hr => hg r n (by simp [hr])) hd'.2
              refine ⟨List.pairwise_cons.2 ⟨fun f' hf' => .inl ?_, h1⟩, fun f' hf' => ?_, fun j b n hj => ?_⟩
              · cases f' with
                | gen r2 m2 => exact fun e => hd'.1 (List.mem_filterMap.2 ⟨_, hf', by rw [show r = r2 from e]; rfl⟩)
                | plain j b n =>
                  intro e
                  have hrj : r = j := e
                  subst hrj
                  rcases h3 r b n hf' with ⟨rfl, -⟩ | hj
                  · exact (hgi r m hgr).1 rfl
                  · exact (hgi r m hgr).2 hj
              · rcases List.mem_cons.1 hf' with rfl | hf'
                · obtain ⟨q, hq⟩ := hgr
                  refine ⟨_, hq, ?_, ?_, ?_⟩ <;> simp only [Fr.place, Fr.regs, Obj.size, sizes, Item.size] <;> omega
                · exact h2 f' hf'
              · rcases h3 j b n (by simpa using hj) with ⟨rfl, hb⟩ | hj
                · exact .inl ⟨rfl, by simp only [sizes]; omega⟩
                · exact .inr hj
    obtain ⟨h1, h2, h3⟩ := key l0 fs (Nat.le_refl _) hf hg hd
    exact ⟨h1, h2, fun j b n hj => by rcases h3 j b n hj with ⟨rfl, -⟩ | hj <;> simp [*]⟩

theorem Base.waiting {g : Cfg} {c : Ctx} {ns : List Nat} {its : List (List Item)} {fs : List Fr} {susp : Nat → Option Nat} (hb : Base g c ns its fs susp)
    (r n : Nat) (hr : susp r = some n) : (∃ l, c.heap r = some ⟨true, n + 5, l, [.frame n]⟩) ∧ ∀ f ∈ fs, f.place.1 ≠ r := by
  obtain ⟨h1, h2⟩ := hb.susp r n hr
  refine ⟨h1, fun f hf e => ?_⟩
  cases f with
  | gen r' m => exact h2 (List.mem_filterMap.2 ⟨_, hf, by rw [show r' = r from e]; rfl⟩)
  | plain j b m =>
    have := (layout hb.chain hb.flat hb.gens hb.nodup).2.2 j b m hf
    exact hb.chain.not_gen h1 (by rw [← show j = r from e]; exact this)

theorem Rep.places {g : Cfg} {c : Ctx} {sp : Spec} (h : Rep g c sp) : C62_full c sp := by
  refine ⟨?_, ?_⟩
  · have := h.at_top
    obtain ⟨fs, s⟩ := sp
    cases fs with
    | nil => exact this.1
    | cons f fs => exact this
  · cases h with
    | empty susp hb hc hr hd => exact ⟨.nil, by simp, fun r n hr => ⟨(hb.susp r n hr).1, by simp⟩⟩
    | normal i ns n l its fs susp h hr =>
      have := layout h.base.chain h.base.flat h.base.gens h.base.nodup
      exact ⟨this.1, this.2.1, h.base.waiting⟩
    | gen r n i ns l its fs susp hs h hr =>
      have := layout h.base.chain h.base.flat h.base.gens h.base.nodup
      have hw := h.base.waiting r n h.susp
      refine ⟨List.pairwise_cons.2 ⟨fun f hf => .inl fun e => hw.2 f hf e.symm, this.1⟩, fun f hf => ?_, fun r' n' hr' => ?_⟩
      · rcases List.mem_cons.1 hf with rfl | hf
        · refine ⟨_, h.gen, ?_, ?_, ?_⟩ <;> simp only [Fr.place, Fr.regs, Obj.size, sizes, Item.size] <;> omega
        · exact this.2.1 f hf
      · have hr2 : susp r' = some n' := hr'
        have hne : r' ≠ r := fun e => by rw [e, hs] at hr2; cases hr2
        have hw' := h.base.waiting r' n' (by simp [upd, hne, hr2])
        refine ⟨hw'.1, fun f hf => ?_⟩
        rcases List.mem_cons.1 hf with rfl | hf
        · exact fun e => hne e.symm
        · exact hw'.2 f hf

/-- **C62**: after any sequence of operations, the context refers to the registers of the topmost frame, no two active frames share slots, all are
within stack objects, and generators which wait are kept. -/
theorem C62 (g : Cfg) (c : Ctx) (sp : Spec) (hcap : 262 ≤ g.cap) (h : Hist g c sp) : C62_full c sp := (h.rep hcap).1.places

/-- What happens from some moment until the frames are the same as then. -/
inductive Later (g : Cfg) (c₀ : Ctx) (sp₀ : Spec) : Ctx → Spec → Prop
  | refl : Later g c₀ sp₀ c₀ sp₀
  | ok {c c' : Ctx} {sp sp' : Spec} (op : Op) (h : Later g c₀ sp₀ c sp) (ha : Allowed sp op) (hd : doOp g c op = .ok c') (hs : sp.after op c'.cur c'.regs = some sp') :
    Later g c₀ sp₀ c' sp'
  | fail {c c' : Ctx} {sp : Spec} (op : Op) (h : Later g c₀ sp₀ c sp) (ha : Allowed sp op) (hd : doOp g c op = .fail c') : Later g c₀ sp₀ c' sp

theorem Later.hist {g : Cfg} {c₀ c : Ctx} {sp₀ sp : Spec} (h : Hist g c₀ sp₀) (hl : Later g c₀ sp₀ c sp) : Hist g c sp := by
  induction hl with
  | refl => exact h
  | ok op _ ha hd hs ih => exact .ok op ih ha hd hs
  | fail op _ ha hd ih => exact .fail op ih ha hd

/-- **C62**, for a caller: whatever was called, resumed, suspended and left since, when its frame is the topmost again, the registers in use are those
which were in use before the call. -/
theorem C62_back (g : Cfg) (c c' : Ctx) (sp sp' : Spec) (hcap : 262 ≤ g.cap) (h : Hist g c sp) (hl : Later g c sp c' sp') (he : sp'.frames = sp.frames) :
    c'.cur = c.cur ∧ c'.regs = c.regs := by
  have t1 := (h.rep hcap).1.at_top
  have t2 := ((hl.hist h).rep hcap).1.at_top
  rw [he] at t2
  cases hf : sp.frames with
  | nil => rw [hf] at t1 t2; exact ⟨t2.1.trans t1.1.symm, t2.2.1.trans t1.2.1.symm⟩
  | cons f fs => rw [hf] at t1 t2; exact ⟨t2.1.trans t1.1.symm, t2.2.trans t1.2.symm⟩

/- Two functions on one stack object: registers 4 and 5, and 10 to 12. -/
example : (playFrom usual [.call 2, .call 3]).map (fun x => (x.2.frames, x.1.cur, x.1.regs)) = some ([.plain 0 10 3, .plain 0 4 2], some 0, 10) := by decide +kernel

/- A generator is put aside while a function runs, and is current again when that has returned. -/
example : (playFrom usual [.call 2, .enter 3, .call 5]).map (fun x => (x.2.frames, x.1.cur, x.1.regs)) = some ([.plain 0 11 5, .gen 1 3, .plain 0 4 2], some 0, 11) := by decide +kernel
example : (playFrom usual [.call 2, .enter 3, .call 5, .ret 0]).map (fun x => (x.2.frames, x.1.cur, x.1.regs)) = some ([.gen 1 3, .plain 0 4 2], some 1, 4) := by decide +kernel

end Verif.Stack
