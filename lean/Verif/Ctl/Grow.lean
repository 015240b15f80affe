import Verif.Ctl.Safe

/-
Compiling a statement only adds: to the code, to the targets, and to the pending jumps.
-/
namespace Verif.Ctl

/-- Everything but pending `break`, `continue` and `fallthrough` grows. -/
structure Grows' (d : Nat) (st st' : St) : Prop where
  code : st.code <+: st'.code
  log : ∀ x ∈ st.log, x ∈ st'.log
  n : st.n ≤ st'.n
  returns : ∀ e ∈ st.returns, e ∈ st'.returns
  kids : ∀ x ∈ st.kids, x.1 < d → x ∈ st'.kids

structure Grows (d : Nat) (st st' : St) : Prop extends Grows' d st st' where
  breaks : ∀ x ∈ st.breaks, x ∈ st'.breaks

theorem Grows'.refl (d : Nat) (st : St) : Grows' d st st := ⟨List.prefix_refl _, fun _ h => h, Nat.le_refl _, fun _ h => h, fun _ h _ => h⟩

theorem Grows.refl (d : Nat) (st : St) : Grows d st st := ⟨.refl d st, fun _ h => h⟩

theorem Grows'.trans {d : Nat} {a b c : St} (h : Grows' d a b) (h' : Grows' d b c) : Grows' d a c :=
  ⟨h.code.trans h'.code, fun x hx => h'.log x (h.log x hx), Nat.le_trans h.n h'.n, fun x hx => h'.returns x (h.returns x hx),
    fun x hx hd => h'.kids x (h.kids x hx hd) hd⟩

theorem Grows.trans {d : Nat} {a b c : St} (h : Grows d a b) (h' : Grows d b c) : Grows d a c :=
  ⟨h.toGrows'.trans h'.toGrows', fun x hx => h'.breaks x (h.breaks x hx)⟩

theorem Grows'.mono {d d' : Nat} {a b : St} (h : Grows' d a b) (hd : d' ≤ d) : Grows' d' a b :=
  ⟨h.code, h.log, h.n, h.returns, fun x hx hl => h.kids x hx (by omega)⟩

theorem Grows.mono {d d' : Nat} {a b : St} (h : Grows d a b) (hd : d' ≤ d) : Grows d' a b := ⟨h.toGrows'.mono hd, h.breaks⟩

variable {d : Nat}

theorem grows_emit (st : St) (i : Instr) : Grows d st (st.emit i) :=
  ⟨⟨⟨[i], rfl⟩, fun _ h => h, Nat.le_refl _, fun _ h => h, fun _ h _ => h⟩, fun _ h => h⟩

theorem grows_emitJ (st : St) (i : Nat → Instr) : Grows d st (st.emitJ i) :=
  ⟨⟨⟨[i st.n], rfl⟩, fun _ h => h, Nat.le_succ _, fun _ h => h, fun _ h _ => h⟩, fun _ h => h⟩

theorem grows_set (st : St) (e t : Nat) : Grows d st (st.set e t) :=
  ⟨⟨List.prefix_refl _, fun _ h => by simp [St.set, h], Nat.le_refl _, fun _ h => h, fun _ h _ => h⟩, fun _ h => h⟩

theorem grows_setAll (st : St) (es : List Nat) (t : Nat) : Grows d st (st.setAll es t) :=
  ⟨⟨List.prefix_refl _, fun _ h => by simp [St.setAll, h], Nat.le_refl _, fun _ h => h, fun _ h _ => h⟩, fun _ h => h⟩

theorem grows_restoreCatch (st : St) (top : Option Nat) : Grows d st (st.restoreCatch top) := by
  cases top
  · exact grows_emit st _
  · exact ⟨⟨⟨[_], rfl⟩, fun _ h => h, Nat.le_succ _, fun _ h => h, fun _ h _ => by simp [St.restoreCatch, h]⟩, fun _ h => h⟩

theorem grows_updateKids (st : St) (r : Nat) (hd : d ≤ r) : Grows d st (st.updateKids r) :=
  ⟨⟨List.prefix_refl _, fun _ h => by simp [St.updateKids, h], Nat.le_refl _, fun _ h => h,
    fun x h hx => by simp only [St.updateKids, List.mem_filter, h, true_and, bne_iff_ne]; omega⟩, fun _ h => h⟩

theorem grows_finishFall (st : St) : Grows' d st st.finishFall :=
  ⟨List.prefix_refl _, fun _ h => by simp [St.finishFall, h], Nat.le_refl _, fun _ h => h, fun _ h _ => h⟩

theorem grows_finishBC (st : St) (cont : Option Nat) (old : List (Kind × Nat)) : Grows' d st (st.finishBC cont old) :=
  ⟨List.prefix_refl _, fun _ h => by simp [St.finishBC, h], Nat.le_refl _, fun _ h => h, fun _ h _ => h⟩

theorem grows_genJump (x : Ctx) (k : Kind) (st : St) : Grows d st (genJump x k st) := by
  unfold genJump
  simp only
  refine .trans (?_ : Grows d st (match x.last with | some r => st.restoreCatch (some r) | none => st))
    (.trans (grows_emitJ _ .jmp) ⟨⟨List.prefix_refl _, fun _ h => h, Nat.le_refl _, fun _ h => h, fun _ h _ => h⟩, fun _ h => ?_⟩)
  · split
    · exact grows_restoreCatch _ _
    · exact .refl _ _
  · exact List.mem_cons_of_mem _ h

theorem grows_genReturn (x : Ctx) (r : Nat) (st : St) : Grows d st (genReturn x r st) := by
  unfold genReturn
  split
  · simp only
    split
    · exact (grows_emit st _).trans ⟨⟨⟨[_], rfl⟩, fun _ h => h, Nat.le_succ _, fun _ h => List.mem_cons_of_mem _ h, fun _ h _ => h⟩,
        fun _ h => h⟩
    · exact ⟨⟨⟨[_], rfl⟩, fun _ h => h, Nat.le_succ _, fun _ h => List.mem_cons_of_mem _ h, fun _ h _ => h⟩, fun _ h => h⟩
  · exact grows_emit _ _

/-- Only instructions, entries and targets are added for a condition. -/
structure CondAdds (st : St) (r : St × List Nat) : Prop where
  breaks : r.1.breaks = st.breaks
  returns : r.1.returns = st.returns
  kids : r.1.kids = st.kids
  grows : ∀ d, Grows d st r.1

theorem genInner_grows (x : Ctx) (c : Cond) : ∀ (op : Bool) (st : St) (J N : List Nat),
    (genInner x c op st J N).1.breaks = st.breaks ∧ (genInner x c op st J N).1.returns = st.returns ∧
    (genInner x c op st J N).1.kids = st.kids ∧ (genInner x c op st J N).1.log = st.log ∧ st.code <+: (genInner x c op st J N).1.code ∧
    st.n ≤ (genInner x c op st J N).1.n := by
  induction c with
  | leaf i known =>
    intro op st J N
    simp only [genInner]
    split
    · simp [St.emitJ]
    · split
      · simp
      · refine ⟨rfl, rfl, rfl, rfl, ?_, Nat.le_succ _⟩
        simp [St.emitJ, St.emit]
  | not c ih => intro op st J N; exact ih (!op) st J N
  | or a b iha ihb =>
    intro op st J N
    simp only [genInner]
    cases op
    · obtain ⟨a1, a2, a3, a4, a5, a6⟩ := iha true st N J
      obtain ⟨b1, b2, b3, b4, b5, b6⟩ := ihb false (genInner x a true st N J).1 (genInner x a true st N J).2.2 (genInner x a true st N J).2.1
      exact ⟨b1.trans a1, b2.trans a2, b3.trans a3, b4.trans a4, a5.trans b5, Nat.le_trans a6 b6⟩
    · obtain ⟨a1, a2, a3, a4, a5, a6⟩ := iha true st J N
      obtain ⟨b1, b2, b3, b4, b5, b6⟩ := ihb true (genInner x a true st J N).1 (genInner x a true st J N).2.1 (genInner x a true st J N).2.2
      exact ⟨b1.trans a1, b2.trans a2, b3.trans a3, b4.trans a4, a5.trans b5, Nat.le_trans a6 b6⟩
  | and a b iha ihb =>
    intro op st J N
    simp only [genInner]
    cases op
    · obtain ⟨a1, a2, a3, a4, a5, a6⟩ := iha false st J N
      obtain ⟨b1, b2, b3, b4, b5, b6⟩ := ihb false (genInner x a false st J N).1 (genInner x a false st J N).2.1 (genInner x a false st J N).2.2
      exact ⟨b1.trans a1, b2.trans a2, b3.trans a3, b4.trans a4, a5.trans b5, Nat.le_trans a6 b6⟩
    · obtain ⟨a1, a2, a3, a4, a5, a6⟩ := iha false st N J
      obtain ⟨b1, b2, b3, b4, b5, b6⟩ := ihb true (genInner x a false st N J).1 (genInner x a false st N J).2.2 (genInner x a false st N J).2.1
      exact ⟨b1.trans a1, b2.trans a2, b3.trans a3, b4.trans a4, a5.trans b5, Nat.le_trans a6 b6⟩

theorem genCond_grows (x : Ctx) (c : Cond) (op : Bool) (st : St) : CondAdds st (genCond x c op st) := by
  obtain ⟨a1, a2, a3, a4, a5, a6⟩ := genInner_grows x c op st [] []
  refine ⟨a1, a2, a3, fun d => .trans (b := (genInner x c op st [] []).1) ?_ (grows_setAll _ _ _)⟩
  exact ⟨⟨a5, fun x h => by rw [a4]; exact h, a6, fun x h => by rw [a2]; exact h, fun x h _ => by rw [a3]; exact h⟩,
    fun x h => by rw [a1]; exact h⟩

theorem genTests_grows (x : Ctx) (cs : Cases) : ∀ (st : St), Grows d st (genTests x cs st).1 ∧ (genTests x cs st).1.breaks = st.breaks := by
  match cs with
  | .nil => intro st; exact ⟨.refl _ _, rfl⟩
  | .cons none _ _ rest => intro st; simpa only [genTests] using genTests_grows x rest st
  | .cons (some i) _ _ rest =>
    intro st
    obtain ⟨h1, h2⟩ := genTests_grows x rest ((st.emit (.case i x.d (x.d + 1) x.env)).emitJ (.jcond true (x.d + 1)))
    simp only [genTests]
    exact ⟨((grows_emit _ _).trans (grows_emitJ _ _)).trans h1, h2⟩

theorem grows_jumpTo (st : St) (k : Kind) : Grows d st { st.emitJ .jmp with breaks := (k, st.n) :: (st.emitJ .jmp).breaks } :=
  ⟨⟨⟨[_], rfl⟩, fun _ h => h, Nat.le_succ _, fun _ h => h, fun _ h _ => h⟩, fun _ h => List.mem_cons_of_mem _ h⟩

theorem grows_deferCopy (top : Option Nat) (f : St → St) (tryB : List (Kind × Nat)) (k : Kind) (st : St)
    (hf : ∀ st, Grows d st (f st)) : Grows d st (deferCopy top f tryB k st) := by
  unfold deferCopy
  simp only
  split
  · exact .refl _ _
  · exact ((grows_setAll st _ _).trans (grows_restoreCatch _ top)).trans ((hf _).trans (grows_jumpTo _ k))

theorem grows_deferCopies (top : Option Nat) (f : St → St) (tryB : List (Kind × Nat)) (st : St)
    (hf : ∀ st, Grows d st (f st)) : Grows d st (deferCopies top f tryB st) :=
  ((grows_deferCopy _ _ _ _ _ hf).trans (grows_deferCopy _ _ _ _ _ hf)).trans (grows_deferCopy _ _ _ _ _ hf)

theorem grows_deferReturn (x : Ctx) (r : Nat) (f : St → St) (es : List Nat) (st : St)
    (hf : ∀ st, Grows d st (f st)) : Grows d st (deferReturn x r f es st) := by
  unfold deferReturn
  split
  · exact .refl _ _
  · exact (((grows_setAll st _ _).trans (grows_restoreCatch _ _)).trans (hf _)).trans (grows_genReturn _ _ _)

/-- Changing the list of pending jumps. -/
theorem grows_breaks (st : St) (bs : List (Kind × Nat)) : Grows' d st { st with breaks := bs } :=
  ⟨List.prefix_refl _, fun _ h => h, Nat.le_refl _, fun _ h => h, fun _ h _ => h⟩

theorem finishBC_breaks (st : St) (cont : Option Nat) (old : List (Kind × Nat)) : ∀ x ∈ old, x ∈ (st.finishBC cont old).breaks :=
  fun _ h => List.mem_append_right _ h

mutual
theorem comp_grows : (s : Stmt) → (x : Ctx) → (st : St) → Grows x.d st (comp x s st)
  | .skip, x, st => .refl _ _
  | .act i, x, st => grows_emit _ _
  | .seq a b, x, st => (comp_grows a x st).trans (comp_grows b x _)
  | .ite c t, x, st =>
    (((genCond_grows x c false st).grows _).trans (comp_grows t x _)).trans (grows_setAll _ _ _)
  | .itee c t e, x, st =>
    (((((genCond_grows x c false st).grows _).trans (comp_grows t x _)).trans (grows_emitJ _ _)).trans (grows_setAll _ _ _)).trans
      ((comp_grows e x _).trans (grows_set _ _ _))
  | .while c b, x, st => by
    simp only [comp]
    split
    · exact .refl _ _
    · refine ⟨?_, finishBC_breaks _ _ _⟩
      exact (grows_breaks st []).trans ((((((genCond_grows x.inLoop c false _).grows _).trans (comp_grows b x.inLoop _)).trans
        ((genCond_grows x.inLoop c true _).grows _)).trans ((grows_setAll _ _ _).trans (grows_setAll _ _ _))).toGrows'.trans
        (grows_finishBC _ _ _))
  | .repeat b c, x, st => by
    simp only [comp]
    split
    · exact ⟨((grows_breaks st []).trans (comp_grows b x.inLoop _).toGrows').trans (grows_finishBC _ _ _), finishBC_breaks _ _ _⟩
    · exact ⟨((grows_breaks st []).trans (((comp_grows b x.inLoop _).trans ((genCond_grows x.inLoop c true _).grows _)).trans
        (grows_setAll _ _ _)).toGrows').trans (grows_finishBC _ _ _), finishBC_breaks _ _ _⟩
  | .forIn i j b, x, st => by
    simp only [comp]
    refine ⟨?_, finishBC_breaks _ _ _⟩
    exact ((grows_breaks st []).trans (((grows_emit _ _).trans ((grows_emitJ _ _).trans (comp_grows b x.inLoop _))).trans
      ((grows_emitJ _ _).trans ((grows_set _ _ _).trans (grows_set _ _ _)))).toGrows').trans (grows_finishBC _ _ _)
  | .switch i .nil, x, st => by
    simp only [comp]
    exact ⟨(grows_breaks st []).trans ((grows_emit _ _).toGrows'.trans (grows_breaks _ _)), fun _ h => h⟩
  | .switch i (.cons none b ft .nil), x, st => by
    simp only [comp]
    exact ⟨((grows_breaks st []).trans ((grows_emit _ _).trans (comp_grows b x _)).toGrows').trans (grows_finishBC _ _ _),
      finishBC_breaks _ _ _⟩
  | .switch i (.cons (some t) b ft rest), x, st => by
    simp only [comp]
    refine ⟨?_, finishBC_breaks _ _ _⟩
    refine .trans ?_ (grows_finishBC _ _ _)
    refine .trans ?_ (grows_setAll _ _ _).toGrows'
    have h := fun es => ((grows_breaks st []).trans ((grows_emit _ (.eval i x.d x.env)).trans ((genTests_grows x (.cons (some t) b ft rest) _).1.trans
      (grows_emitJ _ .jmp))).toGrows').trans (compCases_grows (.cons (some t) b ft rest) x es true _)
    split
    · exact (h _).trans (grows_set _ _ _).toGrows'
    · exact h _
  | .switch i (.cons none b ft (.cons t b' ft' rest)), x, st => by
    simp only [comp]
    refine ⟨?_, finishBC_breaks _ _ _⟩
    refine .trans ?_ (grows_finishBC _ _ _)
    refine .trans ?_ (grows_setAll _ _ _).toGrows'
    have h := fun es => ((grows_breaks st []).trans ((grows_emit _ (.eval i x.d x.env)).trans ((genTests_grows x (.cons none b ft (.cons t b' ft' rest)) _).1.trans
      (grows_emitJ _ .jmp))).toGrows').trans (compCases_grows (.cons none b ft (.cons t b' ft' rest)) x es true _)
    split
    · exact (h _).trans (grows_set _ _ _).toGrows'
    · exact h _
  | .jump k, x, st => grows_genJump _ _ _
  | .ret i, x, st => (grows_emit _ _).trans (grows_genReturn _ _ _)
  | .throw i, x, st => (grows_emit _ _).trans (grows_emit _ _)
  | .assert c k, x, st =>
    (((genCond_grows x c true st).grows _).trans ((grows_emit _ _).trans (grows_emit _ _))).trans (grows_setAll _ _ _)
  | .tryCatch b h, x, st => by
    simp only [comp]
    refine ⟨?_, fun _ hx => List.mem_append_right _ hx⟩
    refine .trans ?_ (grows_breaks _ _)
    refine (grows_breaks st []).trans (Grows.toGrows' ?_)
    refine .trans ?_ (grows_set _ _ _)
    refine .trans ?_ ((comp_grows h { x with d := x.d + 1, env := x.d :: x.env } _).mono (Nat.le_succ x.d))
    refine .trans ?_ (grows_restoreCatch _ _)
    refine .trans ?_ (grows_set _ _ _)
    refine .trans ?_ (grows_updateKids _ _ (Nat.le_refl _))
    refine .trans ?_ (grows_emitJ _ _)
    refine .trans ?_ (grows_restoreCatch _ _)
    exact (grows_emitJ _ _).trans ((comp_grows b { x with tries := (x.d, false) :: x.tries, d := x.d + 1 } _).mono (Nat.le_succ x.d))
  | .tryDefer b f, x, st => by
    simp only [comp]
    have hf : ∀ st, Grows x.d st (comp { x with d := x.d + 1 } f st) := fun st => (comp_grows f _ st).mono (Nat.le_succ _)
    refine .trans ?_ (grows_set _ _ _)
    refine .trans ?_ (grows_deferReturn _ _ _ _ _ hf)
    refine .trans ?_ (grows_deferCopies _ _ _ _ hf)
    refine .trans ?_ ((grows_emitJ _ _).trans (grows_emit _ _))
    refine .trans ?_ (hf _)
    refine .trans ?_ (grows_restoreCatch _ _)
    refine .trans ?_ (grows_set _ _ _)
    refine .trans ?_ (grows_updateKids _ _ (Nat.le_refl _))
    have h := ((grows_emit { st with breaks := [], returns := [] } (.void x.d)).trans (grows_emitJ _ (.catch x.d))).trans
      ((comp_grows b { x with tries := (x.d, true) :: x.tries, d := x.d + 1 } _).mono (Nat.le_succ x.d))
    exact ⟨⟨h.code, h.log, h.n, fun _ hx => hx, h.kids⟩, fun _ hx => hx⟩

theorem compCases_grows : (cs : Cases) → (x : Ctx) → (es : List (Option Nat)) → (first : Bool) → (st : St) →
    Grows' x.d st (compCases x cs es first st).1
  | .nil, x, es, first, st => .refl _ _
  | .cons t b ft rest, x, es, first, st => by
    simp only [compCases]
    have h1 : Grows' x.d st (st.setO es.head?.join) := by
      cases es.head?.join
      · exact .refl _ _
      · exact (grows_set _ _ _).toGrows'
    have h2 : ∀ st, Grows' x.d st (if first then st else st.finishFall) := by
      intro st; split
      · exact .refl _ _
      · exact grows_finishFall _
    have h3 := (h1.trans (h2 _)).trans (comp_grows b x _).toGrows'
    split
    · exact h3.trans (compCases_grows rest x _ false _)
    · exact (h3.trans (grows_emitJ _ _).toGrows').trans (compCases_grows rest x _ false _)
end

/-- Pending `break` and `continue` stay. -/
theorem compCases_breaks : (cs : Cases) → (x : Ctx) → (es : List (Option Nat)) → (first : Bool) → (st : St) →
    ∀ p ∈ st.breaks, p.1 ≠ .fall → p ∈ (compCases x cs es first st).1.breaks
  | .nil, x, es, first, st => fun _ h _ => h
  | .cons t b ft rest, x, es, first, st => by
    simp only [compCases]
    intro p hp hk
    have h1 : p ∈ (st.setO es.head?.join).breaks := by
      cases es.head?.join
      · exact hp
      · exact hp
    have h2 : ∀ st : St, p ∈ st.breaks → p ∈ (if first then st else st.finishFall).breaks := by
      intro st h; split
      · exact h
      · simp [St.finishFall, h, hk]
    have h3 := (comp_grows b x _).breaks p (h2 _ h1)
    split
    · exact compCases_breaks rest x _ false _ p h3 hk
    · exact compCases_breaks rest x _ false _ p h3 hk

end Verif.Ctl
