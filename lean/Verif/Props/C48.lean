import Verif.Call.StackOps

/-
C48: call-stack depth accounting is exact.

Full statement: through every sequence of calls, returns, generator resumes and yields, the recorded stack depth equals the number of slots in use,
returns to zero when everything returned, and never exceeds the limit.
-/
namespace Verif.Stack

/-- The operations which the interpreter does: a frame which is not reentrant has 1 to 255 registers, a generator is resumed when it waits, a
generator waits when it is the topmost, and a closure is not larger than the frame. -/
def Allowed (sp : Spec) : Op → Prop
  | .call n => 0 < n ∧ n ≤ 255
  | .enter n => n ≤ 255
  | .resume r => sp.susp r ≠ none
  | .suspend =>
    match sp.frames with
    | .gen _ _ :: _ => True
    | _ => False
  | .ret m =>
    match sp.frames with
    | f :: _ => Fits m f
    | [] => False

/-- Frames and generators after an operation; a new frame is where the context says that the current registers are. -/
def Spec.after (sp : Spec) (op : Op) (cur : Option Nat) (regs : Nat) : Option Spec :=
  match op, cur with
  | .call n, some i => some ⟨.plain i regs n :: sp.frames, sp.susp⟩
  | .enter n, some r => some ⟨.gen r n :: sp.frames, sp.susp⟩
  | .resume r, _ => (sp.susp r).map fun n => ⟨.gen r n :: sp.frames, upd sp.susp r none⟩
  | .suspend, _ =>
    match sp.frames with
    | .gen r n :: fs => some ⟨fs, upd sp.susp r (some n)⟩
    | _ => none
  | .ret _, _ =>
    match sp.frames with
    | _ :: fs => some ⟨fs, sp.susp⟩
    | [] => none
  | _, _ => none

/-- The number of registers for which an operation needs room. -/
def Spec.want (sp : Spec) : Op → Option Nat
  | .call n => some n
  | .enter n => some n
  | .resume r => sp.susp r
  | _ => none

/-- The state of a context after any sequence of operations, some of which fail. -/
inductive Hist (g : Cfg) : Ctx → Spec → Prop
  | start : Hist g .start ⟨[], fun _ => none⟩
  | ok {c c' : Ctx} {sp sp' : Spec} (op : Op) (h : Hist g c sp) (ha : Allowed sp op) (hd : doOp g c op = .ok c') (hs : sp.after op c'.cur c'.regs = some sp') : Hist g c' sp'
  | fail {c c' : Ctx} {sp : Spec} (op : Op) (h : Hist g c sp) (ha : Allowed sp op) (hd : doOp g c op = .fail c') : Hist g c' sp

def objSlots (h : Nat → Option Obj) (r : Nat) : Nat :=
  match h r with
  | some o => o.size
  | none => 0

/-- Slots of the items of a stack object, with those of the generators which it refers to. -/
def itemSlots (h : Nat → Option Obj) : List Item → Nat
  | [] => 0
  | .frame n :: l => n + 4 + itemSlots h l
  | .ptr r :: l => 1 + objSlots h r + itemSlots h l

/-- All slots in use, counted from the topmost stack object downwards. -/
inductive Slots (h : Nat → Option Obj) : Option Nat → Nat → Prop
  | none : Slots h none 0
  | some (i : Nat) (o : Obj) (k : Nat) (hi : h i = some o) (hl : Slots h o.link k) : Slots h (some i) (1 + itemSlots h o.items + k)

/-- Generators which called something else. -/
def buried (fs : List Fr) : Nat := (fs.tail.filterMap Fr.id?).length

/-- The full statement.  Slot 0 of the first stack object, which is not used, may be left out. -/
def C48_full : Prop := ∀ (g : Cfg) (c : Ctx) (sp : Spec), 262 ≤ g.cap → Hist g c sp →
  (∀ op, Allowed sp op → doOp g c op ≠ .bad) ∧ c.depth ≤ g.max ∧ (∀ k, Slots c.heap c.cur k → c.depth = k ∨ c.depth = k - 1) ∧ (sp.frames = [] → c.depth = 0)

/- Proofs -/

theorem Slots.det {h : Nat → Option Obj} {i : Option Nat} {k k' : Nat} (h1 : Slots h i k) : Slots h i k' → k = k' := by
  induction h1 generalizing k' with
  | none => intro h2; cases h2; rfl
  | some i o k hi hl ih =>
    intro h2
    cases h2 with
    | some _ o' k2 hi' hl' =>
      rw [hi] at hi'
      cases hi'
      rw [ih hl']

theorem itemSlots_frames {h : Nat → Option Obj} {ns : List Nat} {its : List (List Item)} {fs : List Fr} {g : Cfg} (hc : Chain g h ns its)
    (hf : allSpots ns its = fs.map Fr.spot) (hg : ∀ r n, Fr.gen r n ∈ fs → IsGen h r n) :
    ∃ k, Slots h ns.head? k ∧ k = total fs + (fs.filterMap Fr.id?).length + ns.length := by
  induction hc generalizing fs with
  | nil =>
    cases fs with
    | nil => exact ⟨0, .none, rfl⟩
    | cons => simp [allSpots] at hf
  | cons i l ns its hi hn hs hc ih =>
    have key : ∀ (l : List Item) (fs : List Fr), spots i l ++ allSpots ns its = fs.map Fr.spot → (∀ r n, Fr.gen r n ∈ fs → IsGen h r n) →
        ∃ k, Slots h ns.head? k ∧ itemSlots h l + k = total fs + (fs.filterMap Fr.id?).length + ns.length := by
      intro l
      induction l with
      | nil =>
        intro fs hf hg
        obtain ⟨k, h1, h2⟩ := ih (fs := fs) hf hg
        exact ⟨k, h1, by simp only [itemSlots]; omega⟩
      | cons x l ihl =>
        intro fs hf hg
        cases fs with
        | nil => cases x <;> simp [spots] at hf
        | cons f fs =>
          cases x with
          | frame n =>
            simp only [spots, List.cons_append, List.map_cons, List.cons.injEq] at hf
            obtain ⟨k, h1, h2⟩ := ihl fs hf.2 fun r n hr => hg r n (by simp [hr])
            refine ⟨k, h1, ?_⟩
            cases f with
            | plain i b m =>
              have : n = m := by have := hf.1; simp [Fr.spot, Fr.item] at this; exact this.1
              have e : (Fr.plain i b m :: fs).filterMap Fr.id? = fs.filterMap Fr.id? := rfl
              simp only [itemSlots, total, Fr.size, e]
              omega
            | gen r m => have := hf.1; simp [Fr.spot, Fr.item] at this
          | ptr r =>
            simp only [spots, List.cons_append, List.map_cons, List.cons.injEq] at hf
            obtain ⟨k, h1, h2⟩ := ihl fs hf.2 fun r n hr => hg r n (by simp [hr])
            refine ⟨k, h1, ?_⟩
            cases f with
            | plain i b m => have := hf.1; simp [Fr.spot, Fr.item] at this
            | gen r' m =>
              have : r = r' := by have := hf.1; simp [Fr.spot, Fr.item] at this; exact this.1
              subst this
              obtain ⟨q, hq⟩ := hg r m (by simp)
              have e : (Fr.gen r m :: fs).filterMap Fr.id? = r :: fs.filterMap Fr.id? := rfl
              have hz : objSlots h r = m + 5 := by simp only [objSlots, hq, Obj.size, sizes, Item.size]; omega
              simp only [itemSlots, total, Fr.size, e, hz, List.length_cons]
              omega
    obtain ⟨k, h1, h2⟩ := key l fs hf hg
    exact ⟨_, .some i _ k hi h1, by simp only [List.length_cons]; omega⟩

theorem Rep.slots {g : Cfg} {c : Ctx} {sp : Spec} (h : Rep g c sp) :
    ∃ k, Slots c.heap c.cur k ∧ k = c.depth + buried sp.frames + (if sp.frames = [] then 0 else 1) := by
  cases h with
  | empty susp hb hc hr hd => exact ⟨0, by rw [hc]; exact .none, by rw [hd]; rfl⟩
  | normal i ns n l its fs susp h hr =>
    obtain ⟨k, h1, h2⟩ := itemSlots_frames h.base.chain h.base.flat h.base.gens
    refine ⟨k, by rw [h.cur]; exact h1, ?_⟩
    rw [h2, h.depth]
    have e : (Fr.plain i (sizes l + 4) n :: fs).filterMap Fr.id? = fs.filterMap Fr.id? := rfl
    simp only [buried, List.tail_cons, e, List.length_cons, reduceCtorEq, if_false]
    omega
  | gen r n i ns l its fs susp hs h hr =>
    obtain ⟨k, h1, h2⟩ := itemSlots_frames h.base.chain h.base.flat h.base.gens
    refine ⟨_, by rw [h.cur]; exact .some r _ k h.gen h1, ?_⟩
    rw [h2, h.depth]
    simp only [buried, List.tail_cons, List.length_cons, reduceCtorEq, if_false, itemSlots]
    omega

/-- The context points at the topmost frame. -/
theorem Rep.at_top {g : Cfg} {c : Ctx} {sp : Spec} (h : Rep g c sp) :
    match sp.frames with
    | [] => c.cur = none ∧ c.regs = 0 ∧ c.depth = 0
    | f :: _ => c.cur = some f.place.1 ∧ c.regs = f.place.2 := by
  cases h with
  | empty susp hb hc hr hd => exact ⟨hc, hr, hd⟩
  | normal i ns n l its fs susp h hr => exact ⟨h.cur, hr⟩
  | gen r n i ns l its fs susp hs h hr => exact ⟨h.cur, hr⟩

theorem Rep.total_le {g : Cfg} {c : Ctx} {sp : Spec} (h : Rep g c sp) : total sp.frames ≤ c.depth := by
  cases h with
  | empty susp hb hc hr hd => exact Nat.zero_le _
  | normal i ns n l its fs susp h hr => rw [h.depth]; exact Nat.le_add_right ..
  | gen r n i ns l its fs susp hs h hr => rw [h.depth]; simp only [total, Fr.size]; omega

theorem step_spec {g : Cfg} {c : Ctx} {sp : Spec} (hcap : 262 ≤ g.cap) (h : Rep g c sp) (op : Op) (ha : Allowed sp op) :
    (∃ c' sp', doOp g c op = .ok c' ∧ Rep g c' sp' ∧ sp.after op c'.cur c'.regs = some sp' ∧ (c'.depth ≤ g.max + 2 ∨ c'.depth ≤ c.depth)) ∨
    (∃ c' n, doOp g c op = .fail c' ∧ Rep g c' sp ∧ c'.depth = c.depth ∧ sp.want op = some n ∧ Excuse g c n) ∨
    (∃ n, op = .call n ∧ Unlucky g c n ∧ doOp g c op = .bad) := by
  have pushed : ∀ (sp' : Spec) (n : Nat), sp.want op = some n → Pushed g c sp sp' n (doOp g c op) → (∀ c', Rep g c' sp' → sp.after op c'.cur c'.regs = some sp') →
      (∃ c' sp', doOp g c op = .ok c' ∧ Rep g c' sp' ∧ sp.after op c'.cur c'.regs = some sp' ∧ (c'.depth ≤ g.max + 2 ∨ c'.depth ≤ c.depth)) ∨
      (∃ c' n, doOp g c op = .fail c' ∧ Rep g c' sp ∧ c'.depth = c.depth ∧ sp.want op = some n ∧ Excuse g c n) ∨
      (∃ n, op = .call n ∧ Unlucky g c n ∧ doOp g c op = .bad) := by
    intro sp' n hn hp hs
    rcases hp with ⟨c', e, hr, hd, -⟩ | ⟨c', e, hr, hd, hx⟩
    · exact .inl ⟨c', sp', e, hr, hs c' hr, .inl hd⟩
    · exact .inr (.inl ⟨c', n, e, hr, hd, hn, hx⟩)
  cases op with
  | call n =>
    rcases call_spec h ha.1 (by have := ha.2; omega) with ⟨i, b, hp⟩ | ⟨hu, e⟩
    · refine pushed _ n rfl hp fun c' hr => ?_
      have := hr.at_top
      simp only [Fr.place] at this
      simp [Spec.after, this.1, this.2]
    · exact .inr (.inr ⟨n, rfl, hu, e⟩)
  | enter n =>
    obtain ⟨r, hp⟩ := enter_spec (n := n) h (by omega)
    refine pushed _ n rfl hp fun c' hr => ?_
    have := hr.at_top
    simp only [Fr.place] at this
    simp [Spec.after, this.1]
  | resume r =>
    obtain ⟨n, hn⟩ := Option.ne_none_iff_exists'.1 ha
    exact pushed _ n hn (resume_spec h hn (by omega)) fun c' hr => by simp [Spec.after, hn]
  | suspend =>
    obtain ⟨fs, susp⟩ := sp
    cases fs with
    | nil => exact ha.elim
    | cons f fs =>
      cases f with
      | plain => exact ha.elim
      | gen r n =>
        obtain ⟨c', e, hr, hd⟩ := suspend_spec h
        exact .inl ⟨c', _, e, hr, rfl, .inr (by omega)⟩
  | ret m =>
    obtain ⟨fs, susp⟩ := sp
    cases fs with
    | nil => exact ha.elim
    | cons f fs =>
      obtain ⟨c', e, hr, hd⟩ := ret_spec h ha
      exact .inl ⟨c', _, e, hr, rfl, .inr (by omega)⟩

theorem Rep.start (g : Cfg) : Rep g .start ⟨[], fun _ => none⟩ := by
  refine .empty _ ⟨.nil, by simp, rfl, by simp, by simp, fun _ _ h => (by cases h), fun _ _ => rfl, by simp⟩ rfl rfl rfl

theorem Hist.rep {g : Cfg} {c : Ctx} {sp : Spec} (hcap : 262 ≤ g.cap) (h : Hist g c sp) : Rep g c sp ∧ c.depth ≤ g.max + 2 := by
  induction h with
  | start => exact ⟨.start g, Nat.zero_le _⟩
  | @ok c c' sp sp' op h ha hd hs ih =>
    rcases step_spec hcap ih.1 op ha with ⟨c1, sp1, e, hr, hs1, hl⟩ | ⟨c1, n, e, -⟩ | ⟨n, -, -, e⟩
    · rw [hd] at e
      cases e
      rw [hs] at hs1
      cases hs1
      exact ⟨hr, by have := ih.2; omega⟩
    · rw [hd] at e; cases e
    · rw [hd] at e; cases e
  | @fail c c' sp op h ha hd ih =>
    rcases step_spec hcap ih.1 op ha with ⟨c1, sp1, e, -⟩ | ⟨c1, n, e, hr, hl, -⟩ | ⟨n, -, -, e⟩
    · rw [hd] at e; cases e
    · rw [hd] at e
      cases e
      exact ⟨hr, by have := ih.2; omega⟩
    · rw [hd] at e; cases e

/-- **C48**, the numbers.  The depth differs from the number of slots in use by the slots which refer to generators that called something else, and
by slot 0 of the first stack object.  It is not less than the sum of frames, is zero when everything returned, and exceeds the limit by two at
most.  What is missing: exactness (`C48_slots_violated`) and the limit (`C48_limit_violated`). -/
theorem C48_partial (g : Cfg) (c : Ctx) (sp : Spec) (hcap : 262 ≤ g.cap) (h : Hist g c sp) :
    (∀ k, Slots c.heap c.cur k ↔ k = c.depth + buried sp.frames + (if sp.frames = [] then 0 else 1)) ∧ total sp.frames ≤ c.depth ∧ c.depth ≤ g.max + 2 ∧
    (sp.frames = [] → c.depth = 0) := by
  obtain ⟨hr, hl⟩ := h.rep hcap
  obtain ⟨k, h1, h2⟩ := hr.slots
  refine ⟨fun k' => ⟨fun a => (a.det h1).trans h2, fun a => ?_⟩, hr.total_le, hl, fun e => ?_⟩
  · rw [a, ← h2]; exact h1
  · have := hr.at_top
    rw [e] at this
    exact this.2.2

/-- **C48**, no assertion fails.  Every operation does what it should, or fails for want of room or memory and changes nothing.  What is missing:
the operations which fail for want of memory after the current generator was put aside (`C48_memory_violated`). -/
theorem C48_step_partial (g : Cfg) (c : Ctx) (sp : Spec) (hcap : 262 ≤ g.cap) (h : Hist g c sp) (op : Op) (ha : Allowed sp op)
    (hu : ∀ n, op = .call n → ¬ Unlucky g c n) :
    (∃ c' sp', doOp g c op = .ok c' ∧ sp.after op c'.cur c'.regs = some sp' ∧ Hist g c' sp') ∨
    (∃ c' n, doOp g c op = .fail c' ∧ sp.want op = some n ∧ Excuse g c n ∧ Hist g c' sp ∧ c'.depth = c.depth ∧ c'.cur = c.cur ∧ c'.regs = c.regs) := by
  have hr := (h.rep hcap).1
  rcases step_spec hcap hr op ha with ⟨c1, sp1, e, -, hs1, -⟩ | ⟨c1, n, e, hr1, hl, hw, hx⟩ | ⟨n, e, hn, -⟩
  · exact .inl ⟨c1, sp1, e, hs1, .ok op h ha e hs1⟩
  · have t1 := hr.at_top
    have t2 := hr1.at_top
    refine .inr ⟨c1, n, e, hw, hx, .fail op h ha e, hl, ?_⟩
    obtain ⟨fs, s⟩ := sp
    cases fs with
    | nil => exact ⟨t2.1.trans t1.1.symm, t2.2.1.trans t1.2.1.symm⟩
    | cons f fs => exact ⟨t2.1.trans t1.1.symm, t2.2.trans t1.2.symm⟩
  · exact (hu n e hn).elim

/-- Without a limit on memory, a function or generator can be entered exactly when its frame is within the limit. -/
theorem C48_room (g : Cfg) (c : Ctx) (sp : Spec) (hcap : 262 ≤ g.cap) (hm : ∀ k, g.alloc k = true) (h : Hist g c sp) (op : Op) (ha : Allowed sp op)
    (n : Nat) (hw : sp.want op = some n) : (∃ c', doOp g c op = .ok c') ↔ c.depth + (n + 4) ≤ g.max := by
  have hr := (h.rep hcap).1
  have hex : c.depth + (n + 4) ≤ g.max → ¬ Excuse g c n := fun a b => by
    rcases b with b | ⟨k, b⟩
    · omega
    · rw [hm] at b; cases b
  constructor
  · rintro ⟨c', e⟩
    refine Nat.le_of_not_lt fun hlt => ?_
    cases op with
    | call m =>
      cases hw
      simp only [doOp, pushPlain, if_pos hlt, cleanup, ne_eq, not_true_eq_false, or_self, if_false] at e
      cases e
    | enter m =>
      cases hw
      simp only [doOp, pushNewGen, if_pos hlt, cleanup, ne_eq, not_true_eq_false, or_self, if_false] at e
      cases e
    | resume r =>
      have : IsGen c.heap r n := by
        cases hr with
        | empty susp hb hc _ hd => exact (hb.susp r n hw).1
        | normal i ns n0 l its fs susp h1 _ => exact (h1.base.susp r n hw).1
        | gen m n0 i ns l its fs susp hs h1 _ =>
          refine (h1.base.susp r n ?_).1
          have hw' : susp r = some n := hw
          have : r ≠ m := fun e => by rw [e] at hw'; exact absurd (hw'.symm.trans hs) (by simp)
          simp only [upd, this, if_false]
          exact hw
      obtain ⟨q, hq⟩ := this
      simp only [doOp, pushGen, hq, if_pos hlt, cleanup, ne_eq, not_true_eq_false, or_self, if_false] at e
      cases e
    | suspend => cases hw
    | ret m => cases hw
  · intro hle
    rcases step_spec hcap hr op ha with ⟨c1, sp1, e, -⟩ | ⟨c1, m, -, -, -, hw', hx⟩ | ⟨n, -, hn, -⟩
    · exact ⟨c1, e⟩
    · rw [hw] at hw'
      cases hw'
      exact (hex hle hx).elim
    · obtain ⟨_, _, _, _, _, _, _, _, _, _, _, ha⟩ := hn
      rw [hm] at ha; cases ha

/- Counterexamples -/

instance (sp : Spec) (op : Op) : Decidable (Allowed sp op) := by
  cases op with
  | call n => exact inferInstanceAs (Decidable (0 < n ∧ n ≤ 255))
  | enter n => exact inferInstanceAs (Decidable (n ≤ 255))
  | resume r => exact inferInstanceAs (Decidable (sp.susp r ≠ none))
  | suspend =>
    unfold Allowed
    cases sp.frames with
    | nil => exact isFalse id
    | cons f fs => cases f with
      | plain => exact isFalse id
      | gen => exact isTrue trivial
  | ret m =>
    unfold Allowed
    cases sp.frames with
    | nil => exact isFalse id
    | cons f fs => cases f with
      | plain => exact isTrue trivial
      | gen r n => exact inferInstanceAs (Decidable (m ≤ n))

/-- Do operations one after another, none of which fails. -/
def play (g : Cfg) : List Op → Option (Ctx × Spec) → Option (Ctx × Spec)
  | [], x => x
  | op :: l, x => play g l (x.bind fun (c, sp) =>
    if Allowed sp op then
      match doOp g c op with
      | .ok c' => (sp.after op c'.cur c'.regs).map fun sp' => (c', sp')
      | _ => none
    else none)

theorem play_hist {g : Cfg} (l : List Op) (x : Option (Ctx × Spec)) (hx : ∀ c sp, x = some (c, sp) → Hist g c sp) (c : Ctx) (sp : Spec) (h : play g l x = some (c, sp)) : Hist g c sp := by
  induction l generalizing x with
  | nil => exact hx c sp h
  | cons op l ih =>
    refine ih _ (fun c1 sp1 h1 => ?_) h
    cases x with
    | none => cases h1
    | some y =>
      obtain ⟨c0, sp0⟩ := y
      simp only [Option.bind_some] at h1
      split at h1
      · rename_i ha
        split at h1
        · rename_i c' hd
          cases hs : sp0.after op c'.cur c'.regs with
          | none => rw [hs] at h1; cases h1
          | some sp' =>
            rw [hs] at h1
            cases h1
            exact .ok op (hx _ _ rfl) ha hd hs
        · cases h1
      · cases h1

def playFrom (g : Cfg) (l : List Op) : Option (Ctx × Spec) := play g l (some (.start, ⟨[], fun _ => none⟩))

theorem playFrom_hist {g : Cfg} {l : List Op} {c : Ctx} {sp : Spec} (h : playFrom g l = some (c, sp)) : Hist g c sp :=
  play_hist l _ (fun _ _ e => by cases e; exact .start) c sp h

/-- A test on the state after some operations. -/
theorem play_test {g : Cfg} {l : List Op} {p : Ctx → Bool} (h : (playFrom g l).any (fun x => p x.1) = true) : ∃ c sp, Hist g c sp ∧ p c = true := by
  cases e : playFrom g l with
  | none => rw [e] at h; cases h
  | some x => exact ⟨x.1, x.2, playFrom_hist e, by rw [e] at h; exact h⟩

/-- The usual limits, with memory. -/
def usual : Cfg := ⟨1024, 509, fun _ => true⟩

/-- Functions with 255 and 245 registers fill the first stack object, then a generator with 255 registers calls one with 252: neither the slot for
the new stack object nor that for the link of the generator are considered when the limit is checked. -/
theorem C48_limit_violated : ∃ c sp, Hist usual c sp ∧ c.depth = usual.max + 2 := by
  obtain ⟨c, sp, h, hp⟩ := play_test (g := usual) (l := [.call 255, .call 245, .enter 255, .enter 252]) (p := fun c => decide (c.depth = usual.max + 2)) (by decide +kernel)
  exact ⟨c, sp, h, by simpa using hp⟩

/-- A generator with one register calls a function with one register: the depth is 11, and 13 slots are in use, one of which is slot 0 of the first
stack object. -/
theorem C48_slots_violated : ∃ c sp, Hist usual c sp ∧ c.depth = 11 ∧ Slots c.heap c.cur 13 := by
  obtain ⟨x, hx⟩ : ∃ x, playFrom usual [.enter 1, .call 1] = some x := Option.isSome_iff_exists.1 (by decide +kernel)
  have hh : Hist usual x.1 x.2 := playFrom_hist hx
  have hd : x.1.depth = 11 := by
    have : (playFrom usual [.enter 1, .call 1]).map (fun x => x.1.depth) = some 11 := by decide +kernel
    rw [hx] at this
    exact Option.some.inj this
  have hf : x.2.frames = [.plain 0 5 1, .gen 1 1] := by
    have : (playFrom usual [.enter 1, .call 1]).map (fun x => x.2.frames) = some [.plain 0 5 1, .gen 1 1] := by decide +kernel
    rw [hx] at this
    exact Option.some.inj this
  refine ⟨x.1, x.2, hh, hd, ((C48_partial usual x.1 x.2 (by decide) hh).1 13).2 ?_⟩
  rw [hd, hf]
  rfl

def Res.isBad : Res → Bool
  | .bad => true
  | _ => false

theorem Res.isBad_iff {r : Res} (h : r.isBad = true) : r = .bad := by
  cases r with
  | bad => rfl
  | fail => cases h
  | ok => cases h

/-- The third allocation fails: when a generator whose stack object lies on one with three slots left calls a function with ten registers,
`kos_stack_push` has already put the generator aside, and `kos_stack_pop` finds no frame to remove. -/
theorem C48_memory_violated : ∃ g c sp, 262 ≤ g.cap ∧ Hist g c sp ∧ Allowed sp (.call 10) ∧ doOp g c (.call 10) = .bad := by
  obtain ⟨c, sp, h, hp⟩ := play_test (g := ⟨1024, 509, fun k => decide (k ≠ 2)⟩) (l := [.call 255, .call 240, .enter 1])
    (p := fun c => (doOp ⟨1024, 509, fun k => decide (k ≠ 2)⟩ c (.call 10)).isBad) (by decide +kernel)
  exact ⟨_, c, sp, by decide, h, ⟨by decide, by decide⟩, Res.isBad_iff hp⟩

/-- Built-in module initialisers run with a frame which has no registers (core/kos_module.c:1723-1733, core/kos_entity.c:72): when a function which
an initialiser has called returns, the assertion in core/kos_stack.c:370 fails. -/
theorem C48_init_violated : ∃ c c', doOp usual .start (.call 0) = .ok c ∧ doOp usual c (.call 1) = .ok c' ∧ doOp usual c' (.ret 0) = .bad := by
  have key : ∀ r : Res, (match r with | .ok c => (match doOp usual c (.call 1) with | .ok c' => (doOp usual c' (.ret 0)).isBad | _ => false) | _ => false) = true →
      ∃ c c', r = .ok c ∧ doOp usual c (.call 1) = .ok c' ∧ doOp usual c' (.ret 0) = .bad := by
    intro r h
    cases r with
    | bad => cases h
    | fail => cases h
    | ok c =>
      simp only at h
      split at h
      · rename_i c' e
        exact ⟨c, c', rfl, e, Res.isBad_iff h⟩
      · cases h
  exact key _ (by decide +kernel)

theorem C48_violated : ¬ C48_full := by
  intro hf
  obtain ⟨c, sp, h, hd⟩ := C48_limit_violated
  have := (hf usual c sp (by decide) h).2.1
  omega

/- A generator which calls a function, which resumes another generator; then all of them are left. -/
example : (playFrom usual [.enter 3, .suspend, .enter 2, .suspend, .resume 1, .call 7, .resume 3, .suspend, .ret 0, .suspend]).map
    (fun x => (x.1.depth, x.1.cur, x.2.frames)) = some (0, none, []) := by decide +kernel

example : (playFrom usual [.enter 3, .suspend, .enter 2, .suspend, .resume 1, .call 7, .resume 3]).map
    (fun x => (x.1.depth, x.1.cur, x.2.frames)) = some (26, some 3, [.gen 3 2, .plain 4 5 7, .gen 1 3]) := by decide +kernel

end Verif.Stack
