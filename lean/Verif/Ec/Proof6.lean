import Verif.Ec.Proof5

/- async, and everything together. -/

namespace Verif.Ec

variable {V W : Type} {S : Sem V W} {cx : Cx}

local macro "regs" : tactic => `(tactic| grind (splits := 40) [Wants, keeps, keepsE])

theorem callee_local {f : Callee} (hf : f.isLocal = true) {sib : Bool} {dest : Option Nat} {t : Tmps} {g : Fun}
    (h : genCallee cx sib dest f t = some g) : g.code = .skip := by
  unfold Callee.isLocal at hf
  split at hf
  · simp only [genCallee, gen, Option.bind_eq_bind] at h
    cases h
    rfl
  · simp at hf

/-- Code which gets `async` of the function in `f` and calls it: `ob` is the object. -/
theorem asyncEnd_ok {f k : Nat} {ob : Option Nat} {dest : Option Nat} {t t' : Tmps} {c : Code} {d : Nat}
    (h : asyncEnd cx dest f (some ob) k t = some (c, d, t')) (hf : held cx t f) (hk : cx.vars k = false ∧ t k = true)
    (hk1 : cx.vars (k + 1) = false ∧ t (k + 1) = true) (hfk : f ≠ k ∧ f ≠ k + 1) (hd : ∀ x, dest = some x → held cx t x ∧ x ≠ k ∧ x ≠ k + 1)
    (ho : ∀ o, ob = some o → held cx t o ∧ o ≠ k ∧ o ≠ k + 1 ∧ (cx.vars o = false → o ≠ f ∧ dest ≠ some o)) :
    ((dest = some d ∨ dest = none ∧ cx.vars d = false ∧ (t d = false ∨ ob = some d)) ∧
      ∀ j, t' j = true ↔ (t j = true ∧ (cx.vars j = true ∨ dest = some j ∨ (j ≠ f ∧ j ≠ k ∧ j ≠ k + 1 ∧ ob ≠ some j))) ∨ (j = d ∧ dest = none)) ∧
    ∀ (ρ : Regs V) (w : W) (v : V × Option V) (a : V), ρ f = v.1 → ob.map ρ = v.2 → ρ (k + 1) = a →
      Sim S c ρ w ((S.prim (.get false) [v.1, S.const (.str strAsync)] >>- fun h => S.prim .callN [h, v.1, objOf S v, a]) w)
        (fun u ρ' => ρ' d = u ∧ ∀ j, held cx t j → dest ≠ some j → j ≠ k → (cx.vars j = true ∨ j ≠ f) → (cx.vars j = true ∨ ob ≠ some j) → ρ' j = ρ j)
        (fun ρ' => ∀ j, held cx t j → dest ≠ some j → j ≠ k → (cx.vars j = true ∨ j ≠ f) → (cx.vars j = true ∨ ob ≠ some j) → ρ' j = ρ j) := by
  simp only [asyncEnd, asyncThis, Option.bind_eq_bind, Option.bind_eq_some_iff] at h
  obtain ⟨⟨a, t1⟩, h1, ⟨c1, t2⟩, h2, h3⟩ := h
  dsimp only at h2
  have h4 := take_ok h1
  cases h3
  have hdn : dest = none → dest.getD a = a := by rintro rfl; rfl
  have hds : ∀ d, dest = some d → dest.getD a = d := by rintro d rfl; rfl
  generalize dest.getD a = d at *
  cases ob with
  | none =>
    dsimp only at h4
    have ha : (dest = some a ∧ a ≠ f ∧ ∀ j, t1 j = t j) ∨
        ((dest = none ∨ dest = some f) ∧ cx.vars a = false ∧ t a = false ∧ ∀ j, t1 j = if j = a then true else t j) := by
      grind
    clear h4
    have hda : dest = some d ∨ (dest = none ∧ d = a) := by cases dest <;> grind
    clear hdn hds ho
    have haf : a ≠ f ∧ a ≠ k ∧ a ≠ k + 1 := by grind
    have hat : dest = some a ∨ ¬ held cx t a := by grind
    have hh : ∀ j, held cx t j → held cx t1 j := by grind
    obtain ⟨s1, hs⟩ := getProp_ok (S := S) h2 (by grind)
    refine ⟨⟨by grind, ?_⟩, fun ρ w v x h5 h6 h7 => ?_⟩
    · clear hs; grind
    · clear ha
      refine Sim.skip_seq ?_
      refine Sim.seq (hs ρ w v.1 h5) (by clear hs; grind) ?_
      intro u ρ1 w1 ⟨h8, h9⟩
      have k1 : ∀ j, held cx t j → j ≠ a → ρ1 j = ρ j := by grind
      clear hs h9
      simp only [Option.map_none] at h6
      simp only [objOf, ← h6, Option.getD_none]
      refine Sim.load_seq (Sim.op ?_ ?_ ?_)
      · simp only [List.map, Operand.val]; grind
      · grind
      · grind
  | some o =>
    dsimp only at h4
    have ho := ho o rfl
    have ha : (dest = some a ∧ a ≠ f ∧ ∀ j, t1 j = freeReg cx o t j) ∨
        ((dest = none ∨ dest = some f) ∧ cx.vars a = false ∧ freeReg cx o t a = false ∧ ∀ j, t1 j = if j = a then true else freeReg cx o t j) := by
      grind
    clear h4
    have hda : dest = some d ∨ (dest = none ∧ d = a) := by cases dest <;> grind
    clear hdn hds
    have haf : a ≠ f ∧ a ≠ k ∧ a ≠ k + 1 := by grind
    have hat : dest = some a ∨ ¬ held cx t a ∨ (a = o ∧ cx.vars a = false) := by grind
    have hh : ∀ j, held cx t j → (j ≠ o ∨ cx.vars o = true) → held cx t1 j := by grind
    obtain ⟨s1, hs⟩ := getProp_ok (S := S) h2 (by grind)
    refine ⟨⟨by grind, ?_⟩, fun ρ w v x h5 h6 h7 => ?_⟩
    · clear hs; grind (splits := 40)
    · clear ha
      refine Sim.move_seq ?_
      refine Sim.seq (hs (upd ρ k (ρ o)) w v.1 (by grind)) (by clear hs; grind) ?_
      intro u ρ1 w1 ⟨h8, h9⟩
      have k1 : ∀ j, held cx t j → (j ≠ o ∨ cx.vars o = true) → j ≠ a → j ≠ k → ρ1 j = ρ j := by grind
      have k2 : ρ1 k = ρ o := by grind
      clear hs h9
      simp only [Option.map_some] at h6
      simp only [objOf, ← h6, Option.getD_some]
      refine Sim.skip_seq (Sim.op ?_ ?_ ?_)
      · simp only [List.map, Operand.val]; grind
      · grind
      · grind

theorem ok_async {f : Callee} {l : Elems} (named : Bool) (ihf : CalleeOk S cx f) (ihl : FillOk S cx l) :
    GenOk S cx (.async f named l) := by
  intro sib dest t o h hw hd hc hm
  have hwf : WfF cx f := fun x hx => hw x (by simp [Expr.reads, hx])
  have hwl : WfL cx l := fun x hx => hw x (by simp [Expr.reads, hx])
  simp only [Expr.modAsync, Bool.or_eq_false_iff] at hm
  simp only [Expr.clob, Bool.or_eq_false_iff] at hc
  simp only [gen, Option.bind_eq_bind, Option.bind_eq_some_iff] at h
  obtain ⟨⟨k, t1⟩, h1, g, h2, o1, h3, ⟨c, d, t2⟩, h4, h5⟩ := h
  dsimp only at h2
  cases h5
  have h6 := genRange_ok h1
  have hk := h6.1 k (by omega) (by omega)
  have hk1 := h6.1 (k + 1) (by omega) (by omega)
  have ht1 : ∀ j, t1 j = true ↔ t j = true ∨ j = k ∨ j = k + 1 := by grind
  clear h6 h1
  obtain ⟨⟨s1, s2, s3, s4⟩, hs⟩ := ihf _ _ _ _ h2 hwf (by regs) (fun d hd => (hc d hd).1) hm.1.2
  have hao : asyncObj f g = some g.obj := by
    cases f <;> simp_all [asyncObj, Callee.isModule]
  rw [hao] at h4
  obtain ⟨s5, hs2⟩ := pack_ok ihl h3 hwl (by grind [Wants]) hm.2 (by grind)
  have s6 : o1.reg = k + 1 ∧ ∀ j, o1.tmps j = g.tmps j := by grind
  clear s5
  have hgk : g.reg ≠ k ∧ g.reg ≠ k + 1 := by regs
  obtain ⟨⟨s7, s8⟩, hs3⟩ := asyncEnd_ok (S := S) h4 (by regs) (by grind) (by grind) hgk (by regs) (by regs)
  have hl : f.isLocal = true ∧ g.code = .skip ∨ (∀ x, dest = some x → l.reads cx.this x = false) := by
    cases hf : f.isLocal
    · right; intro x hx; have := (hc x hx).2; simpa [hf] using this
    · exact .inl ⟨rfl, callee_local hf h2⟩
  clear hc ihf ihl h2 h3 h4 hao
  refine ⟨?_, fun ρ w => ?_⟩
  · clear hs hs2 hs3
    constructor
    · regs
    · regs
    · regs
  · simp only [Expr.eval, Expr.late]
    have hh : Sim S g.code ρ w (f.eval S cx.this ρ w)
        (fun v ρ' => (ρ' g.reg = v.1 ∧ g.obj.map ρ' = v.2 ∧ keeps cx t1 dest ρ ρ') ∧
          ∀ x, cx.vars x = true → l.reads cx.this x = true → ρ' x = ρ x) (keepsE cx t1 dest false ρ) := by
      rcases hl with ⟨h7, h8⟩ | h7
      · refine (Sim.skip_inv h8 (hs ρ ρ w (by grind))).mono ?_ ?_
        · rintro v ρ' ⟨h9, rfl⟩; exact ⟨h9, by grind⟩
        · simp
      · refine (hs ρ ρ w (by grind)).mono ?_ (fun _ h => h)
        clear hs hs2 hs3
        intro v ρ' ⟨h8, h9, h10⟩
        refine ⟨⟨h8, h9, h10⟩, ?_⟩
        regs
    clear hs hl
    refine Sim.seq hh (by clear hs2 hs3 hh; regs) ?_
    intro v ρ1 w1 ⟨⟨h7, h8, h9⟩, h10⟩
    refine Sim.seq (hs2 ρ ρ1 w1 h10) ?_ ?_
    · clear hs2 hs3 hh; regs
    · intro a ρ2 w2 ⟨h11, h12⟩
      have k1 : ρ2 g.reg = v.1 := by clear hs2 hs3 hh; regs
      have k2 : g.obj.map ρ2 = v.2 := by
        clear hs2 hs3 hh
        rw [← h8]; cases hob : g.obj
        · rfl
        · regs
      have k3 : keeps cx t dest ρ ρ2 := by clear hs2 hs3 hh; regs
      refine (hs3 ρ2 w2 v a k1 k2 (by grind)).mono ?_ ?_
      · clear hs2 hs3 hh h9 h12; regs
      · clear hs2 hs3 hh h9 h12; regs

mutual
theorem gen_ok : ∀ e : Expr, GenOk S cx e
  | .lit c => ok_lit c
  | .this => ok_this
  | .local x => ok_local x
  | .var g b => ok_var g b
  | .neg e => ok_neg (gen_ok e)
  | .pos e => ok_pos (gen_ok e)
  | .not b e => ok_not b (gen_ok e)
  | .logic b x y => ok_logic b (gen_ok x) (gen_ok y)
  | .cond c x y => ok_cond (test_ok c) (gen_ok x) (gen_ok y)
  | .unary n e => ok_unary n (gen_ok e)
  | .binary n b x y => ok_binary n b (gen_ok x) (gen_ok y)
  | .has b e k => ok_has b k (gen_ok e)
  | .prop b e k => ok_prop b k (gen_ok e)
  | .elem b e i => ok_elem b i (gen_ok e)
  | .index b e k => ok_index b (gen_ok e) (gen_ok k)
  | .slice x y z => ok_slice (gen_ok x) (gen_ok y) (gen_ok z)
  | .yield e => ok_yield (gen_ok e)
  | .array l => ok_array (fill_ok l)
  | .object l => ok_object (fill_ok l)
  | .func f i l => ok_func f i (fill_ok l)
  | .call f n l => ok_call n (callee_ok f) (fill_ok l) (args_ok l) (only_ok l)
  | .async f n l => ok_async n (callee_ok f) (fill_ok l)
theorem fill_ok : ∀ l : Elems, FillOk S cx l
  | .nil => fill_nil
  | .cons x k e l => fill_cons x k (gen_ok e) (fill_ok l)
theorem args_ok : ∀ l : Elems, ArgsOk S cx l
  | .nil => args_nil
  | .cons x k e l => args_cons x k (gen_ok e) (args_ok l)
theorem only_ok : ∀ (l : Elems) x k e, l = .cons x k e .nil → GenOk S cx e
  | .nil, _, _, _, h => by simp at h
  | .cons _ _ e _, _, _, _, h => by cases h; exact gen_ok e
theorem callee_ok : ∀ f : Callee, CalleeOk S cx f
  | .fn e => callee_fn (gen_ok e)
  | .prop b e k => callee_prop b k (gen_ok e)
  | .elem b e i => callee_elem b i (gen_ok e)
  | .index b e k => callee_index b (gen_ok e) (gen_ok k)
  | .module g => callee_module g
theorem test_ok : ∀ c : Cond, TestOk S cx c
  | .val e => ok_val (gen_ok e)
  | .not c => ok_tnot (test_ok c)
  | .logic b x y => ok_tlogic b (test_ok x) (test_ok y)
end

end Verif.Ec
