import Verif.Ec.Proof4

/- Calls, and everything together. -/

namespace Verif.Ec

variable {V W : Type} {S : Sem V W} {cx : Cx}

local macro "regs" : tactic => `(tactic| grind (splits := 40) [Wants, keeps, keepsE])

/-- The arguments as an array or an object. -/
def packed (S : Sem V W) (this : Nat) (ρ : Env V) (named : Bool) (l : Elems) : Comp V W V :=
  if named then S.prim .newObj [] >>- fun c => l.fill S this ρ .object c 0 >>- fun _ => ret c
  else S.prim (.newArray (fixedSize l 127)) [] >>- fun c =>
    l.fill S this ρ (.array (fixedSize l 127)) c 0 >>- fun _ => ret c

theorem pack_ok {l : Elems} (ih : FillOk S cx l) {named : Bool} {dest : Option Nat} {t : Tmps} {o : Out}
    (h : genPack cx dest named l (fun m r t => genFill cx m r 0 l t) t = some o) (hw : WfL cx l)
    (hd : Wants cx dest t) (hm : l.modAsync = false) (hr : ∀ d, dest = some d → cx.vars d = true → l.ids = false) :
    ((dest = some o.reg ∧ ∀ j, o.tmps j = t j) ∨ (dest = none ∧ cx.vars o.reg = false ∧ t o.reg = false ∧
      ∀ j, o.tmps j = if j = o.reg then true else t j)) ∧
    ∀ ρ ρ1 w, (∀ x, cx.vars x = true → l.reads cx.this x = true → ρ1 x = ρ x) →
      Sim S o.code ρ1 w (packed S cx.this ρ named l w)
        (fun v ρ' => ρ' o.reg = v ∧ keeps cx t (some o.reg) ρ1 ρ') (fun ρ' => keeps cx t (some o.reg) ρ1 ρ') := by
  have hrd : ∀ d, (dest = some d ∨ cx.vars d = false) → l.reads cx.this d = false := by
    intro d hdd
    by_cases hvd : cx.vars d = true
    · have h1 := hd d (by grind)
      exact (reads_ids d (h1.2 hvd)).2 l (hr d (by grind) hvd)
    · exact reads_temp hw (by simpa using hvd)
  have hv : isVar cx dest = true → l.ids = false := by
    unfold isVar; split
    · intro h2; exact hr _ rfl h2
    · simp
  unfold genPack at h
  cases named with
  | true =>
    simp only [if_true, genObject, Option.bind_eq_bind, Option.bind_eq_some_iff] at h
    obtain ⟨⟨d, t1⟩, h1, ⟨c, t2⟩, h2, h3⟩ := h
    dsimp only at h2
    cases h3
    have h5 := take_ok h1
    obtain ⟨s1, hs⟩ := box_ok (p := .newObj) ih h2 hw hm (by regs) (hrd d (by grind))
    refine ⟨by clear hs ih; regs, fun ρ ρ1 w hg => ?_⟩
    simp only [packed, if_true]
    simp only [kindOf] at hs
    refine (hs ρ ρ1 w hg).mono ?_ ?_ <;> clear hs ih <;> regs
  | false =>
    simp only [Bool.false_eq_true, if_false, genArray, Option.bind_eq_bind, Option.bind_eq_some_iff] at h
    obtain ⟨⟨d, t1⟩, h1, ⟨c, t2⟩, h2, h3⟩ := h
    dsimp only at h2
    cases h3
    have h4 : (if (l.ids && isVar cx dest) = true then none else dest) = dest := by
      cases hi : isVar cx dest <;> simp_all
    rw [h4] at h1
    have h5 := take_ok h1
    obtain ⟨s1, hs⟩ := box_ok (p := .newArray (initialSize l)) ih h2 hw hm (by regs) (hrd d (by grind))
    refine ⟨by clear hs ih; regs, fun ρ ρ1 w hg => ?_⟩
    simp only [packed, Bool.false_eq_true, if_false]
    simp only [kindOf, initialSize_eq] at hs ⊢
    refine (hs ρ ρ1 w hg).mono ?_ ?_ <;> clear hs ih <;> regs

theorem callee_ids {this x : Nat} (hx : x ≠ this) (f : Callee) (h : f.ids = false) : f.reads this x = false := by
  cases f <;> simp only [Callee.ids, Bool.or_eq_false_iff] at h <;> simp only [Callee.reads, Bool.or_eq_false_iff]
  · exact (reads_ids x hx).1 _ h
  · exact (reads_ids x hx).1 _ h
  · exact (reads_ids x hx).1 _ h
  · exact ⟨(reads_ids x hx).1 _ h.1, (reads_ids x hx).1 _ h.2⟩

theorem callee_var {f : Callee} {sib : Bool} {t : Tmps} {g : Fun} (h : genCallee cx sib none f t = some g) (j : Nat)
    (hj : j = g.reg ∨ g.obj = some j) (hv : cx.vars j = true) : f.reads cx.this j = true := by
  cases f <;> simp only [genCallee, Option.bind_eq_bind, Option.bind_eq_some_iff] at h
  · obtain ⟨o, h1, h2⟩ := h
    cases h2
    have := gen_var_reads _ h1
    simp only [Callee.reads]; grind
  · obtain ⟨o, h1, ⟨d, t1⟩, h2, ⟨c, t2⟩, h3, h4⟩ := h
    cases h4
    have := gen_var_reads _ h1
    have := take_ok h2
    simp only [Callee.reads]; grind
  · obtain ⟨o, h1, ⟨d, t1⟩, h2, h4⟩ := h
    cases h4
    have := gen_var_reads _ h1
    have := take_ok h2
    simp only [Callee.reads]; grind
  · obtain ⟨o, h1, ⟨d, t1⟩, h2, o2, h3, h4⟩ := h
    cases h4
    have := gen_var_reads _ h1
    have := take_ok h2
    simp only [Callee.reads]; grind
  · obtain ⟨⟨d, t1⟩, h2, h4⟩ := h
    cases h4
    have := take_ok h2
    grind

theorem thisObj_ok {g : Fun} {t t' : Tmps} {c : Code} {o : Nat} (h : thisObj cx g t = some (c, o, t')) :
    (g.obj = some o ∧ c = .skip ∧ ∀ j, t' j = t j) ∨
    (g.obj = none ∧ c = .load o .void ∧ cx.vars o = false ∧ t o = false ∧ ∀ j, t' j = if j = o then true else t j) := by
  unfold thisObj at h
  split at h
  · cases h; grind
  · simp only [Option.bind_eq_bind, Option.bind_eq_some_iff] at h
    obtain ⟨⟨o, t1⟩, h1, h2⟩ := h
    cases h2
    have := genReg_ok h1
    grind

/-- What is known after a callee. -/
structure Called (cx : Cx) (t : Tmps) (g : Fun) : Prop where
  reg : cx.vars g.reg = true ∨ t g.reg = false
  obj : ∀ o, g.obj = some o → (cx.vars o = true ∨ t o = false) ∧ (cx.vars o = false → o ≠ g.reg)
  tmps : ∀ j, g.tmps j = true ↔ t j = true ∨ (cx.vars j = false ∧ (j = g.reg ∨ g.obj = some j))

def CalledSim (S : Sem V W) (cx : Cx) (t : Tmps) (f : Callee) (g : Fun) : Prop :=
  ∀ ρ w, Sim S g.code ρ w (f.eval S cx.this ρ w)
        (fun v ρ' => ρ' g.reg = v.1 ∧ g.obj.map ρ' = v.2 ∧ keeps cx t none ρ ρ') (keepsE cx t none false ρ)

theorem plain_eq (named : Bool) (l : Elems) : plain named l = !(named || l.anyExpand || decide (4 < l.length)) := by
  simp only [plain, length_eq, anyExpand_eq]
  cases named <;> cases l.hasExpand <;> simp
  by_cases h : l.count ≤ 4
  · simp [h, Nat.not_lt.mpr h]
  · simp [h, Nat.not_le.mp h]

theorem call_pack {f : Callee} {l : Elems} {named sib : Bool} {g : Fun} {t : Tmps} {dest : Option Nat} {o1 o : Out}
    (hg : Called cx t g) (hs : CalledSim S cx t f g) (ihl : FillOk S cx l) (hwl : WfL cx l) (hm : l.modAsync = false)
    (hd : Wants cx dest t) (hpf : plain named l = false)
    (hcv : ∀ j, j = g.reg ∨ g.obj = some j → cx.vars j = true → f.reads cx.this j = true)
    (hci : ∀ x, dest = some x → cx.vars x = true → f.ids = false → f.reads cx.this x = false)
    (h3 : genPack cx (if ((sib || f.ids || l.ids) && isVar cx dest) = true then none else dest) named l
            (fun m r t => genFill cx m r 0 l t) g.tmps = some o1)
    (h4 : callArray cx dest g o1.code o1.reg o1.tmps = some o) :
    Shape cx t dest o.reg o.tmps ∧ ∀ ρ w, Sim S o.code ρ w ((Expr.call f named l).eval S cx.this ρ w)
      (fun v ρ' => ρ' o.reg = v ∧ keeps cx t dest ρ ρ') (keepsE cx t dest ((Expr.call f named l).late sib) ρ) := by
  obtain ⟨s1, s3, s4⟩ := hg
  have hgr : held cx g.tmps g.reg := by grind
  have hgo : ∀ o, g.obj = some o → held cx g.tmps o := by grind
  have hv : isVar cx dest = true ↔ ∃ x, dest = some x ∧ cx.vars x = true := by
    unfold isVar; split <;> simp
  obtain ⟨s5, hs2⟩ := pack_ok ihl h3 hwl (by grind [Wants]) hm (by grind)
  simp only [callArray, Option.bind_eq_bind, Option.bind_eq_some_iff] at h4
  obtain ⟨⟨c, ob, t1⟩, h5, h6⟩ := h4
  have h7 := thisObj_ok h5
  cases h6
  have hdn : dest = none → dest.getD o1.reg = o1.reg := by rintro rfl; rfl
  have hds : ∀ d, dest = some d → dest.getD o1.reg = d := by rintro d rfl; rfl
  generalize dest.getD o1.reg = d at *
  have hdd : dest = some d ∨ (dest = none ∧ d = o1.reg) := by cases dest <;> grind
  have hargs : (dest = some o1.reg ∧ (∀ j, o1.tmps j = g.tmps j) ∧
        (cx.vars o1.reg = true → sib = false ∧ f.ids = false ∧ l.ids = false)) ∨
      (dest ≠ some o1.reg ∧ cx.vars o1.reg = false ∧ g.tmps o1.reg = false ∧ (∀ j, o1.tmps j = if j = o1.reg then true else g.tmps j) ∧
        (∀ x, dest = some x → cx.vars x = true)) := by
    cases hi : isVar cx dest <;> cases hj : (sib || f.ids || l.ids) <;> simp only [hi, hj] at s5 hv <;> regs
  have hne1 : o1.reg ≠ g.reg := by regs
  have hne2 : ∀ o, g.obj = some o → o ≠ o1.reg := by regs
  clear s5 hv h3 h5 hcv hci
  have k6 : dest = none → ¬ held cx t o1.reg := by grind
  have k7 : ∀ j, held cx t j → held cx g.tmps j := by grind
  refine ⟨by clear hs hs2 ihl; constructor <;> regs, fun ρ w => ?_⟩
  simp only [Expr.eval, Expr.late, hpf, Bool.false_eq_true, if_false]
  refine Sim.seq (hs ρ w) (by clear hs hs2 ihl; regs) ?_
  intro v ρ1 w1 ⟨hv1, hv2, hk⟩
  refine Sim.seq (hs2 ρ ρ1 w1 ?_) ?_ ?_
  · clear hs hs2 ihl; regs
  · clear hs hs2 ihl
    simp only [Bool.false_or]
    regs
  · intro a ρ2 w2 ⟨hv3, hk2⟩
    clear hs hs2 ihl
    have k1 : ρ2 g.reg = v.1 := by regs
    have k2 : ∀ o, g.obj = some o → ρ2 o = ρ1 o := by regs
    have k3 : keeps cx t dest ρ ρ2 := by regs
    have k4 : keepsE cx t dest (false || sib || f.ids || l.ids) ρ ρ2 := by simp only [Bool.false_or]; regs
    clear hk hk2
    rcases h7 with ⟨h8, rfl, h9⟩ | ⟨h8, rfl, h10, h11, h9⟩
    · refine Sim.skip_seq (Sim.op ?_ ?_ ?_)
      · simp only [List.map, Operand.val, objOf]
        rw [h8] at hv2
        simp only [Option.map_some] at hv2
        rw [← hv2]
        simp only [Option.getD_some]
        grind
      · clear k4; regs
      · exact k4
    · have k5 : ob ≠ g.reg := by grind
      have k8 : ob ≠ o1.reg := by regs
      have k9 : ¬ held cx t ob := by grind
      clear hargs h9 h11 h10
      refine Sim.load_seq (Sim.op ?_ ?_ ?_)
      · simp only [List.map, Operand.val, objOf]
        rw [h8] at hv2
        simp only [Option.map_none] at hv2
        rw [← hv2]
        simp only [Option.getD_none]
        grind
      · clear k4 s1 s3 s4 k7 k1 k2
        intro v
        refine ⟨by grind, fun j hj hjd => ?_⟩
        have := k3 j hj hjd
        grind
      · intro j hj hl
        have := k4 j hj hl
        grind

/-- The frame for calls without an array of arguments. -/
theorem call_plain {f : Callee} {l : Elems} {named sib : Bool} {g : Fun} {t : Tmps} {dest : Option Nat} {c : Code} {ρ : Regs V} {w : W} {r : Nat}
    (hs : CalledSim S cx t f g) (hpt : plain named l = true)
    (hh : ∀ v ρ1 w1, ρ1 g.reg = v.1 ∧ g.obj.map ρ1 = v.2 ∧ keeps cx t none ρ ρ1 →
          Sim S c ρ1 w1 ((l.vals S cx.this ρ >>- callWith S v) w1)
          (fun v ρ' => ρ' r = v ∧ keeps cx t dest ρ ρ') (fun ρ' => keeps cx t none ρ ρ')) :
    Sim S (g.code ;; c) ρ w ((Expr.call f named l).eval S cx.this ρ w) (fun v ρ' => ρ' r = v ∧ keeps cx t dest ρ ρ')
      (keepsE cx t dest ((Expr.call f named l).late sib) ρ) := by
  simp only [Expr.eval, hpt, if_true]
  refine Sim.seq (hs ρ w) (by clear hs hh; regs) ?_
  intro v ρ1 w1 hq
  refine (hh v ρ1 w1 hq).mono ?_ ?_ <;> clear hs hh <;> regs

theorem call_one {f : Callee} {e : Expr} {x : Bool} {k : Key} {named sib : Bool} {g : Fun} {t : Tmps} {dest : Option Nat} {o1 : Out} {d : Nat} {t1 : Tmps}
    (hg : Called cx t g) (hs : CalledSim S cx t f g) (ihe : GenOk S cx e) (hw : WfE cx e) (hm : e.modAsync = false)
    (hd : Wants cx dest t) (hpt : plain named (.cons x k e .nil) = true)
    (h3 : gen cx false none e g.tmps = some o1) (h4 : reuse cx dest [o1.reg] o1.tmps = some (d, t1)) :
    Shape cx t dest d (freeFun cx g (freeNot cx d o1.reg t1)) ∧
    ∀ ρ w, Sim S (g.code ;; o1.code ;; callCode d g [.reg o1.reg]) ρ w ((Expr.call f named (.cons x k e .nil)).eval S cx.this ρ w)
      (fun v ρ' => ρ' d = v ∧ keeps cx t dest ρ ρ') (keepsE cx t dest ((Expr.call f named (.cons x k e .nil)).late sib) ρ) := by
  obtain ⟨s1, s3, s4⟩ := hg
  have h6 := reuse_ok h4
  obtain ⟨⟨s5, s6⟩, hs2⟩ := ihe.free h3 hw hm
  have s7 : cx.vars o1.reg = false → o1.reg ≠ g.reg ∧ ∀ o, g.obj = some o → o1.reg ≠ o := by grind
  have s8 : (dest = some d ∧ ∀ j, t1 j = o1.tmps j) ∨ (dest = none ∧ cx.vars d = false ∧ d = o1.reg ∧ ∀ j, t1 j = o1.tmps j) ∨
      (dest = none ∧ cx.vars o1.reg = true ∧ cx.vars d = false ∧ o1.tmps d = false ∧ ∀ j, t1 j = if j = d then true else o1.tmps j) := by
    grind
  clear h6 h4 h3 ihe
  refine ⟨?_, fun ρ w => call_plain hs hpt ?_⟩
  · clear hs hs2
    constructor <;> try simp only [freeFun_ap]
    · regs
    · regs
    · regs
  · intro v ρ1 w1 ⟨hv1, hv2, hk⟩
    simp only [Elems.vals]
    have : ∀ w1, ((e.eval S cx.this ρ >>- fun v => ret ([] : List V) >>- fun vs => ret (v :: vs)) >>- callWith S v) w1 =
        (e.eval S cx.this ρ >>- fun u => callWith S v [u]) w1 := by
      intro w1
      simp only [andThen, ret]
      rcases e.eval S cx.this ρ w1 with ⟨r, w2⟩
      cases r <;> rfl
    rw [this]
    refine Sim.seq (hs2 ρ ρ1 w1 (by clear hs hs2; grind [keeps])) (by clear hs hs2; regs) ?_
    intro u ρ2 w2 ⟨hu, hk2⟩
    clear hs hs2
    have k1 : ρ2 g.reg = v.1 := by grind
    have k2 : g.obj.map ρ2 = v.2 := by rw [← hv2]; cases hob : g.obj <;> grind
    have k3 : keeps cx t none ρ ρ2 := by regs
    refine callCode_ok (vs := [u]) k1 k2 (by simp [Operand.val, hu]) ?_ k3
    clear hk hk2
    have k4 : dest = some d ∨ (dest = none ∧ ¬ held cx t d) := by grind
    clear s7 s8 s5 s6 s4 s3
    regs

theorem call_more {f : Callee} {l : Elems} {named sib : Bool} {g : Fun} {t : Tmps} {dest : Option Nat} {c : Code} {k : Nat} {t1 t2 : Tmps}
    (hg : Called cx t g) (hs : CalledSim S cx t f g) (iha : ArgsOk S cx l) (hwl : WfL cx l) (hm : l.modAsync = false)
    (hd : Wants cx dest t) (hpt : plain named l = true) (hln : 0 < l.length)
    (h3 : genRange cx l.length g.tmps = some (k, t1)) (h4 : genArgs cx k l t1 = some (c, t2)) :
    Shape cx t dest (dest.getD k) (freeFun cx g (freeRange cx (dest.getD k) k l.length t2)) ∧
    ∀ ρ w, Sim S (g.code ;; c ;; callCode (dest.getD k) g (argRegs k l.length)) ρ w ((Expr.call f named l).eval S cx.this ρ w)
      (fun v ρ' => ρ' (dest.getD k) = v ∧ keeps cx t dest ρ ρ') (keepsE cx t dest ((Expr.call f named l).late sib) ρ) := by
  obtain ⟨s1, s3, s4⟩ := hg
  have h6 := genRange_ok h3
  obtain ⟨s5, hs2⟩ := iha _ _ _ _ h4 hwl hm (by grind)
  have hdn : dest = none → dest.getD k = k := by rintro rfl; rfl
  have hds : ∀ d, dest = some d → dest.getD k = d := by rintro d rfl; rfl
  generalize dest.getD k = d at *
  have hdk : dest = some d ∨ (dest = none ∧ d = k) := by cases dest <;> grind
  clear hdn hds h3 h4 iha
  have hgk : g.reg < k ∨ k + l.length ≤ g.reg := by grind
  have hok : ∀ o, g.obj = some o → o < k ∨ k + l.length ≤ o := by grind
  have htk : ∀ j, held cx t j → j < k ∨ k + l.length ≤ j := by grind
  refine ⟨?_, fun ρ w => call_plain hs hpt ?_⟩
  · clear hs hs2
    generalize l.length = n at *
    have h7 := h6.1 k (by omega) (by omega)
    constructor
    · regs
    · regs
    · simp only [freeFun_ap, freeRange_ap]
      intro j
      have h8 := s5 j
      have h9 := h6.2 j
      have h10 := h6.1 j
      have h11 := s4 j
      clear s5 h6 s4
      regs
  · intro v ρ1 w1 ⟨hv1, hv2, hk⟩
    have hgr : held cx g.tmps g.reg := by grind
    have hgo : ∀ o, g.obj = some o → held cx g.tmps o := by grind
    have k7 : ∀ j, held cx g.tmps j → held cx t1 j := by grind
    have k8 : ∀ j, held cx t j → held cx g.tmps j := by grind
    refine Sim.seq (hs2 ρ ρ1 w1 ?_) ?_ ?_
    · clear hs hs2; regs
    · clear hs hs2; regs
    · intro vs ρ2 w2 ⟨hu, hk2⟩
      clear hs hs2
      have k1 : ρ2 g.reg = v.1 := by grind
      have k2 : g.obj.map ρ2 = v.2 := by rw [← hv2]; cases hob : g.obj <;> grind
      have k3 : keeps cx t none ρ ρ2 := by
        intro j hj _
        have := hk2 j (k7 _ (k8 _ hj)) (htk j hj)
        have := hk j hj (by simp)
        grind
      refine callCode_ok k1 k2 (by rw [argRegs_map, hu]) ?_ k3
      have k4 : dest = some d ∨ (dest = none ∧ ¬ held cx t d) := by grind
      intro u
      refine ⟨by grind, fun j hj hjd => ?_⟩
      have := k3 j hj (by simp)
      grind

theorem ok_call {f : Callee} {l : Elems} (named : Bool) (ihf : CalleeOk S cx f) (ihl : FillOk S cx l) (iha : ArgsOk S cx l)
    (iho : ∀ x k e, l = .cons x k e .nil → GenOk S cx e) : GenOk S cx (.call f named l) := by
  intro sib dest t o h hw hd hc hm
  have hwf : WfF cx f := fun x hx => hw x (by simp [Expr.reads, hx])
  have hwl : WfL cx l := fun x hx => hw x (by simp [Expr.reads, hx])
  simp only [Expr.modAsync, Bool.or_eq_false_iff] at hm
  simp only [gen, Option.bind_eq_bind, Option.bind_eq_some_iff] at h
  obtain ⟨g, h1, h2⟩ := h
  have hcv := callee_var h1
  have hci : ∀ x, dest = some x → cx.vars x = true → f.ids = false → f.reads cx.this x = false :=
    fun x hx hv => callee_ids ((hd x hx).2 hv) f
  obtain ⟨⟨s1, s2, s3, s4⟩, hs⟩ := ihf _ _ _ _ h1 hwf (by simp [Wants]) (by simp) hm.1
  have hg : Called cx t g := ⟨by simpa using s1, by grind, by grind⟩
  have hs' : CalledSim S cx t f g := fun ρ w => hs ρ ρ w (by grind)
  clear s1 s2 s3 s4 ihf hs
  have hpl := plain_eq named l
  split at h2
  · rename_i hp
    simp only [Option.bind_eq_some_iff] at h2
    obtain ⟨o1, h3, h4⟩ := h2
    exact call_pack hg hs' ihl hwl hm.2 hd (by rw [hpl, hp]; rfl) hcv hci h3 h4
  · rename_i hp
    have hpt : plain named l = true := by
      rw [hpl]; simpa using hp
    split at h2
    · rename_i hl
      have hln : l = .nil := count_zero (by rw [← length_eq]; exact hl)
      subst hln
      simp only [Option.bind_eq_some_iff] at h2
      obtain ⟨⟨d, t1⟩, h3, h4⟩ := h2
      have h5 := take_ok h3
      cases h4
      obtain ⟨s1, s3, s4⟩ := hg
      refine ⟨?_, fun ρ w => call_plain hs' hpt ?_⟩
      · clear hs' ihl iha iho
        constructor <;> simp only [freeFun_ap] <;> regs
      · intro v ρ1 w1 ⟨hv1, hv2, hk⟩
        clear hs' ihl iha iho
        refine callCode_ok (vs := []) hv1 hv2 rfl ?_ ?_
        · regs
        · regs
    · split at h2
      · rename_i hl0 hl
        obtain ⟨x, k, e, hle⟩ : ∃ x k e, l = .cons x k e .nil := by
          cases l with
          | nil => simp [Elems.length] at hl
          | cons x k e l =>
            rw [length_eq] at hl
            simp only [Elems.count] at hl
            exact ⟨x, k, e, by rw [count_zero (l := l) (by omega)]⟩
        have ihe := iho x k e hle
        subst hle
        simp only [genOnly, Option.bind_eq_some_iff] at h2
        obtain ⟨o1, h3, ⟨d, t1⟩, h4, h5⟩ := h2
        cases h5
        simp only [Elems.modAsync, Bool.or_eq_false_iff] at hm
        exact call_one hg hs' ihe (fun x hx => hwl x (by simp [Elems.reads, hx])) hm.2.1 hd hpt h3 h4
      · rename_i hl0 hl1
        simp only [Option.bind_eq_some_iff] at h2
        obtain ⟨⟨k, t1⟩, h3, ⟨c, t2⟩, h4, h5⟩ := h2
        cases h5
        exact call_more hg hs' iha hwl hm.2 hd hpt (by omega) h3 h4

end Verif.Ec
