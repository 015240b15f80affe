import Verif.Ec.Proof7

/- Statements, alone and one after another. -/

namespace Verif.Ec

variable {V W : Type} {S : Sem V W} {cx : Cx}

local macro "regs" : tactic => `(tactic| grind (splits := 40) [Wants, keeps, keepsE])

/-- `c` does what `res` says; `early` are variables which may differ if something is thrown. -/
def Does (S : Sem V W) (cx : Cx) (t : Tmps) (early : Nat → Bool) (c : Code) (ρ1 : Regs V) (w : W)
    (res : Except V Unit × Env V × W) : Prop :=
  ∃ ρ', c.run S ρ1 w = (res.1, ρ', res.2.2) ∧
    (∀ x, cx.vars x = true → res.1 = .ok () ∨ early x = false → ρ' x = res.2.1 x) ∧
    ∀ j, cx.vars j = false → t j = true → ρ' j = ρ1 j

/-- The result of a computation of the variables, as that of a statement. -/
def asStmt (ρ : Env V) (m : Except V (Env V) × W) : Except V Unit × Env V × W :=
  match m with
  | (.ok ρ, w) => (.ok (), ρ, w)
  | (.error x, w) => (.error x, ρ, w)

theorem Does.of_sim {t : Tmps} {early : Nat → Bool} {c : Code} {ρ ρ1 : Regs V} {w : W} {m : Except V (Env V) × W}
    (h : Sim S c ρ1 w m
      (fun env ρ' => (∀ x, cx.vars x = true → ρ' x = env x) ∧ ∀ j, cx.vars j = false → t j = true → ρ' j = ρ1 j)
      (fun ρ' => (∀ x, cx.vars x = true → early x = false → ρ' x = ρ x) ∧ ∀ j, cx.vars j = false → t j = true → ρ' j = ρ1 j)) :
    Does S cx t early c ρ1 w (asStmt ρ m) := by
  obtain ⟨r, w1⟩ := m
  cases r with
  | ok env =>
    obtain ⟨ρ', h1, h2, h3⟩ := h
    exact ⟨ρ', h1, fun x hx _ => h2 x hx, h3⟩
  | error e =>
    obtain ⟨ρ', h1, h2, h3⟩ := h
    exact ⟨ρ', h1, fun x hx he => h2 x hx (by simpa [asStmt] using he), h3⟩

theorem Does.seq {t : Tmps} {early early' : Nat → Bool} {a b : Code} {ρ1 : Regs V} {w : W} {res : Except V Unit × Env V × W}
    {f : Env V → W → Except V Unit × Env V × W} (h : Does S cx t early a ρ1 w res) (he : ∀ x, early' x = false → early x = false)
    (h2 : ∀ ρ', res.1 = .ok () → (∀ x, cx.vars x = true → ρ' x = res.2.1 x) →
      (∀ j, cx.vars j = false → t j = true → ρ' j = ρ1 j) → Does S cx t early' b ρ' res.2.2 (f res.2.1 res.2.2)) :
    Does S cx t early' (a ;; b) ρ1 w (match res with | (.ok _, ρ, w) => f ρ w | (.error x, ρ, w) => (.error x, ρ, w)) := by
  obtain ⟨r, env, w1⟩ := res
  obtain ⟨ρ', h3, h4, h5⟩ := h
  cases r with
  | ok u =>
    obtain ⟨ρ2, h6, h7, h8⟩ := h2 ρ' rfl (fun x hx => h4 x hx (.inl rfl)) h5
    refine ⟨ρ2, ?_, h7, fun j hj ht => ?_⟩
    · simp only [Code.run, h3]; exact h6
    · rw [h8 j hj ht, h5 j hj ht]
  | error x =>
    refine ⟨ρ', by simp only [Code.run, h3], fun x hx hl => h4 x hx ?_, h5⟩
    rcases hl with hl | hl
    · simp at hl
    · exact .inr (he x hl)

theorem run_seq (a b : Code) (ρ : Regs V) (w : W) : (a ;; b).run S ρ w =
    match a.run S ρ w with
    | (.ok _, ρ, w) => b.run S ρ w
    | r => r := by
  simp only [Code.run]
  rcases a.run S ρ w with ⟨r, ρ1, w1⟩
  cases r <;> rfl

theorem run_assoc (a b c : Code) (ρ : Regs V) (w : W) : (a ;; b ;; c).run S ρ w = ((a ;; b) ;; c).run S ρ w := by
  simp only [run_seq]
  rcases a.run S ρ w with ⟨r, ρ1, w1⟩
  cases r <;> rfl

def StmtOk (S : Sem V W) (cx : Cx) (s : Stmt) : Prop :=
  ∀ t c t', genStmt cx s t = some (c, t') → s.Wf cx.vars cx.this → s.NoModAsync → s.clob cx.this = false →
    (∀ j, t' j = t j) ∧ ∀ ρ ρ1 w, (∀ x, cx.vars x = true → ρ1 x = ρ x) →
      Does S cx t (fun x => s.early x) c ρ1 w (s.exec S cx.this ρ w)

theorem stmt_expr (e : Expr) : StmtOk S cx (.expr e) := by
  intro t c t' h hw hm hc
  simp only [genStmt, Option.bind_eq_bind, Option.bind_eq_some_iff] at h
  obtain ⟨o, h1, h2⟩ := h
  cases h2
  obtain ⟨⟨s1, s2⟩, hs⟩ := (gen_ok (S := S) e).free h1 hw.value hm.value
  refine ⟨by clear hs; grind, fun ρ ρ1 w hr => ?_⟩
  have : (Stmt.expr e).exec S cx.this ρ w = asStmt ρ ((e.eval S cx.this ρ >>- fun _ => ret ρ) w) := by
    simp only [Stmt.exec, asStmt, andThen, ret]
    rcases e.eval S cx.this ρ w with ⟨r, w1⟩
    cases r <;> rfl
  rw [this]
  refine Does.of_sim (Sim.ret (g := fun _ => ρ) ((hs ρ ρ1 w (by grind)).mono ?_ ?_)) <;> clear hs <;> grind

theorem exec_assign (op : Option Nat) (g : Target) (e : Expr) (ρ : Env V) (w : W) : (Stmt.assign op g e).exec S cx.this ρ w =
    asStmt ρ ((e.eval S cx.this ρ >>- fun v => g.set S cx.this ρ op v) w) := by
  simp only [Stmt.exec, asStmt]
  rcases (e.eval S cx.this ρ >>- fun v => g.set S cx.this ρ op v) w with ⟨r, w1⟩
  cases r <;> rfl

theorem stmt_local (x : Nat) (e : Expr) : StmtOk S cx (.assign none (.local x) e) := by
  intro t c t' h hw hm hc
  simp only [genStmt, Option.bind_eq_bind, Option.bind_eq_some_iff] at h
  obtain ⟨o, h1, h2⟩ := h
  cases h2
  have hx := hw.written (.local x) (by simp [Stmt.targets]) x (by simp [Target.isVar])
  obtain ⟨⟨s1, s2, s3⟩, hs⟩ := (gen_ok (S := S) e).at h1 hw.value (by regs) (by simpa [Stmt.clob] using hc) hm.value
  refine ⟨by clear hs; grind, fun ρ ρ1 w hr => ?_⟩
  rw [exec_assign]
  refine Does.of_sim ?_
  simp only [Target.set, combine]
  have : ∀ w, ((e.eval S cx.this ρ >>- fun v => ret v >>- fun u => ret (upd ρ x u)) w) =
      (e.eval S cx.this ρ >>- fun v => ret (upd ρ x v)) w := fun w => rfl
  rw [this]
  refine Sim.seq (hs ρ ρ1 w (by grind)) ?_ ?_
  · clear hs
    intro ρ' hk
    refine ⟨fun y hy hl => ?_, by regs⟩
    simp only [Stmt.early, Bool.and_eq_false_iff, decide_eq_false_iff_not, Bool.not_eq_false'] at hl
    have := hk y (.inl hy) (by grind)
    grind
  · clear hs
    intro v ρ' w' ⟨hv, hk⟩
    have key : ∀ y, cx.vars y = true → upd ρ' x v y = upd ρ x v y := by regs
    unfold moveTo
    split
    · rename_i he
      refine Sim.skip ⟨fun y hy => ?_, by regs⟩
      have := key y hy
      grind
    · refine Sim.move ⟨fun y hy => ?_, by regs⟩
      have := key y hy
      grind

theorem stmt_op (n x : Nat) (e : Expr) : StmtOk S cx (.assign (some n) (.local x) e) := by
  intro t c t' h hw hm hc
  simp only [genStmt, Option.bind_eq_bind, Option.bind_eq_some_iff] at h
  obtain ⟨o, h1, h2⟩ := h
  cases h2
  have hx := hw.written (.local x) (by simp [Stmt.targets]) x (by simp [Target.isVar])
  obtain ⟨⟨s1, s2⟩, hs⟩ := (gen_ok (S := S) e).free h1 hw.value hm.value
  refine ⟨by clear hs; grind, fun ρ ρ1 w hr => ?_⟩
  rw [exec_assign]
  refine Does.of_sim ?_
  simp only [Target.set, combine]
  have : ∀ w, ((e.eval S cx.this ρ >>- fun v => (ret (ρ x) >>- fun u => S.prim (.op n) [u, v]) >>- fun u => ret (upd ρ x u)) w) =
      (e.eval S cx.this ρ >>- fun v => S.prim (.op n) [ρ x, v] >>- fun u => ret (upd ρ x u)) w := fun w => rfl
  rw [this]
  refine Sim.seq (hs ρ ρ1 w (by grind)) (by grind) ?_
  intro v ρ' w' ⟨hv, hk⟩
  clear hs
  refine Sim.ret (g := fun u => upd ρ x u) (Sim.op ?_ ?_ ?_)
  · simp only [List.map, Operand.val]; grind
  · grind
  · grind

theorem stmt_assign (op : Option Nat) (g : Target) (hg : ∀ x, g ≠ .local x) (e : Expr) : StmtOk S cx (.assign op g e) := by
  intro t c t' h hw hm hc
  have : genStmt cx (.assign op g e) t = (do
      let o ← gen cx false .none e t
      let (c, t) ← assign cx op o.reg g o.tmps
      return (o.code ;; c, t)) := by
    cases g with
    | «local» x => exact absurd rfl (hg x)
    | _ => simp only [genStmt]
  rw [this] at h
  simp only [Option.bind_eq_bind, Option.bind_eq_some_iff] at h
  obtain ⟨o, h1, ⟨c1, t1⟩, h2, h3⟩ := h
  cases h3
  obtain ⟨⟨s1, s2⟩, hs⟩ := (gen_ok (S := S) e).free h1 hw.value hm.value
  obtain ⟨s3, hs2⟩ := assign_ok (S := S) g _ _ _ _ _ h2 (fun x hx => hw.targets g (by simp [Stmt.targets]) x hx)
    (hm.targets g (by simp [Stmt.targets])) (by grind)
  refine ⟨by clear hs hs2; grind, fun ρ ρ1 w hr => ?_⟩
  rw [exec_assign]
  refine Does.of_sim ?_
  refine Sim.seq (hs ρ ρ1 w (by grind)) (by grind) ?_
  intro v ρ' w' ⟨hv, hk⟩
  refine (hs2 ρ ρ' w' v (by grind) hv).mono ?_ ?_ <;> clear hs hs2 <;> grind

theorem next_ok {it : Nat} (hit : cx.vars it = false) (l : List Target) (t : Tmps) (c : Code) (t' : Tmps)
    (h : genNext cx it l t = some (c, t')) (ht : t it = true)
    (hw1 : ∀ g ∈ l, ∀ x, g.reads cx.this x = true → cx.vars x = true)
    (hw2 : ∀ g ∈ l, ∀ x, g.isVar x = true → cx.vars x = true ∧ x ≠ cx.this) (hm : ∀ g ∈ l, g.modAsync = false) :
    (∀ j, t' j = t j) ∧ ∀ ρ ρ1 w v, (∀ x, cx.vars x = true → ρ1 x = ρ x) → ρ1 it = v →
      Does S cx t (fun _ => false) c ρ1 w (setAll S cx.this v l ρ w) := by
  induction l generalizing t c t' with
  | nil =>
    simp only [genNext] at h
    cases h
    refine ⟨fun _ => rfl, fun ρ ρ1 w v hr hv => ⟨ρ1, by simp [Code.run, setAll], by simpa [setAll] using hr, fun _ _ _ => rfl⟩⟩
  | cons g l ih =>
    have hset : ∀ (v : V) ρ w, setAll S cx.this v (g :: l) ρ w = (match asStmt ρ ((S.prim .next [v] >>- fun u => g.set S cx.this ρ none u) w) with
        | (.ok _, ρ, w) => setAll S cx.this v l ρ w | (.error x, ρ, w) => (.error x, ρ, w)) := by
      intro v ρ w
      simp only [setAll, asStmt]
      rcases (S.prim .next [v] >>- fun u => g.set S cx.this ρ none u) w with ⟨r, w1⟩
      cases r <;> rfl
    have ih := fun t c t' h ht => ih t c t' h ht (fun g hg => hw1 g (by simp [hg])) (fun g hg => hw2 g (by simp [hg])) (fun g hg => hm g (by simp [hg]))
    by_cases hg : ∃ x, g = .local x
    · obtain ⟨x, rfl⟩ := hg
      have hx := hw2 (.local x) (by simp) x (by simp [Target.isVar])
      simp only [genNext, Option.bind_eq_bind, Option.bind_eq_some_iff] at h
      obtain ⟨⟨c1, t1⟩, h1, h2⟩ := h
      cases h2
      obtain ⟨s1, hs⟩ := ih _ _ _ h1 ht
      refine ⟨s1, fun ρ ρ1 w v hr hv => ?_⟩
      rw [hset]
      have h3 : Does S cx t (fun _ => false) (.op .next x [.reg it]) ρ1 w
          (asStmt ρ ((S.prim .next [v] >>- fun u => (Target.local x).set S cx.this ρ none u) w)) := by
        refine Does.of_sim ?_
        simp only [Target.set, combine]
        refine Sim.ret (g := fun u => upd ρ x u) (Sim.op (by simp [Operand.val, hv]) ?_ ?_)
        · clear hs; grind
        · clear hs; grind
      refine Does.seq (f := fun ρ w => setAll S cx.this v l ρ w) h3 (by simp) ?_
      intro ρ2 _ h4 h5
      exact hs _ ρ2 _ v h4 (by grind)
    · have hgn : genNext cx it (g :: l) t = (do
          let (r, t) ← genReg cx t
          let (c1, t) ← assign cx .none r g t
          let (c2, t) ← genNext cx it l t
          return (.op .next r [.reg it] ;; c1 ;; c2, t)) := by
        cases g with
        | «local» x => exact absurd ⟨x, rfl⟩ hg
        | _ => simp only [genNext]
      rw [hgn] at h
      simp only [Option.bind_eq_bind, Option.bind_eq_some_iff] at h
      obtain ⟨⟨r, t1⟩, h1, ⟨c1, t2⟩, h2, ⟨c2, t3⟩, h3, h4⟩ := h
      dsimp only at h2 h3
      cases h4
      have h5 := genReg_ok h1
      obtain ⟨s3, hs2⟩ := assign_ok (S := S) g _ _ _ _ _ h2 (hw1 g (by simp)) (hm g (by simp)) (by grind)
      have s4 : t2 = t := by funext j; grind
      subst s4
      obtain ⟨s1, hs⟩ := ih _ _ _ h3 ht
      refine ⟨s1, fun ρ ρ1 w v hr hv => ?_⟩
      rw [hset]
      have h6 : Does S cx t2 (fun _ => false) (.op .next r [.reg it] ;; c1) ρ1 w
          (asStmt ρ ((S.prim .next [v] >>- fun u => g.set S cx.this ρ none u) w)) := by
        refine Does.of_sim ?_
        refine Sim.seq (Q1 := fun v ρ' => ρ' = upd ρ1 r v) (E1 := fun ρ' => ρ' = ρ1)
          (Sim.op (by simp [Operand.val, hv]) (fun _ => rfl) rfl) (by rintro _ rfl; grind) ?_
        rintro u _ w1 rfl
        refine (hs2 ρ (upd ρ1 r u) w1 u (by grind) (by grind)).mono ?_ ?_ <;> clear hs hs2 <;> grind
      have h7 := Does.seq (f := fun ρ w => setAll S cx.this v l ρ w) (early' := fun _ => false) (b := c2) h6 (by simp) (by
        intro ρ2 _ h4 h5
        exact hs _ ρ2 _ v h4 (by grind))
      obtain ⟨ρ', h8, h9⟩ := h7
      refine ⟨ρ', ?_, h9⟩
      rw [← h8, run_assoc]

theorem stmt_multi (l : List Target) (e : Expr) : StmtOk S cx (.multi l e) := by
  intro t c t' h hw hm hc
  simp only [genStmt, Option.bind_eq_bind, Option.bind_eq_some_iff] at h
  obtain ⟨o, h1, ⟨d, t1⟩, h2, ⟨c1, t2⟩, h3, h4⟩ := h
  dsimp only at h3
  cases h4
  have h5 := destReg_ok h2
  obtain ⟨⟨s1, s2⟩, hs⟩ := (gen_ok (S := S) e).free h1 hw.value hm.value
  obtain ⟨s3, hs2⟩ := next_ok (S := S) (it := d) (by grind) l t1 c1 t2 h3 (by grind) hw.targets hw.written hm.targets
  refine ⟨by clear hs hs2; grind, fun ρ ρ1 w hr => ?_⟩
  have hh : Sim S (o.code ;; .op .newIter d [.reg o.reg]) ρ1 w ((e.eval S cx.this ρ >>- fun v => S.prim .newIter [v]) w)
      (fun v ρ' => ρ' d = v ∧ ∀ j, held cx t j → ρ' j = ρ1 j) (fun ρ' => ∀ j, held cx t j → ρ' j = ρ1 j) := by
    refine Sim.seq (hs ρ ρ1 w (by grind)) (by grind) ?_
    intro v ρ' w' ⟨hv, hk⟩
    clear hs hs2
    refine Sim.op (by simp [Operand.val, hv]) ?_ ?_
    · grind
    · grind
  simp only [Stmt.exec]
  rcases hm : (e.eval S cx.this ρ >>- fun v => S.prim .newIter [v]) w with ⟨r, w1⟩
  rw [hm] at hh
  have hrun : ∀ r ρ' w', (o.code ;; .op .newIter d [.reg o.reg] : Code).run S ρ1 w = (r, ρ', w') →
      (o.code ;; .op .newIter d [.reg o.reg] ;; c1 : Code).run S ρ1 w = (match r with | .ok _ => c1.run S ρ' w' | .error x => (.error x, ρ', w')) := by
    intro r ρ' w' hh
    rw [run_assoc, run_seq, hh]
    cases r <;> rfl
  cases r with
  | error x =>
    obtain ⟨ρ', h6, h7⟩ := hh
    refine ⟨ρ', hrun _ _ _ h6, fun x hx _ => ?_, fun j hj ht => h7 j (.inr ht)⟩
    simp only
    rw [h7 x (.inl hx), hr x hx]
  | ok v =>
    obtain ⟨ρ', h6, h7, h8⟩ := hh
    obtain ⟨ρ2, h9, h10, h11⟩ := hs2 ρ ρ' w1 v (fun x hx => by rw [h8 x (.inl hx), hr x hx]) h7
    refine ⟨ρ2, ?_, fun x hx _ => h10 x hx (.inr rfl), fun j hj ht => ?_⟩
    · rw [hrun _ _ _ h6]; exact h9
    · rw [h11 j hj (by clear hs2 hs hrun h9 h6; grind), h8 j (.inr ht)]

theorem stmt_ok (s : Stmt) : StmtOk S cx s := by
  cases s with
  | expr e => exact stmt_expr e
  | multi l e => exact stmt_multi l e
  | assign op g e =>
    by_cases hg : ∃ x, g = .local x
    · obtain ⟨x, rfl⟩ := hg
      cases op with
      | none => exact stmt_local x e
      | some n => exact stmt_op n x e
    · exact stmt_assign op g (fun x hx => hg ⟨x, hx⟩) e

/-- Statements one after another. -/
theorem all_ok (l : List Stmt) (t : Tmps) (c : Code) (t' : Tmps) (h : genAll cx l t = some (c, t'))
    (hw : ∀ s ∈ l, s.Wf cx.vars cx.this) (hm : ∀ s ∈ l, s.NoModAsync) (hc : ∀ s ∈ l, s.clob cx.this = false) :
    (∀ j, t' j = t j) ∧ ∀ ρ ρ1 w, (∀ x, cx.vars x = true → ρ1 x = ρ x) →
      ∃ ρ', c.run S ρ1 w = ((execAll S cx.this l ρ w).1.mapError Prod.fst, ρ', (execAll S cx.this l ρ w).2.2) ∧
        (∀ x, cx.vars x = true → (∀ v s, (execAll S cx.this l ρ w).1 = .error (v, s) → s.early x = false) →
          ρ' x = (execAll S cx.this l ρ w).2.1 x) ∧
        ∀ j, cx.vars j = false → t j = true → ρ' j = ρ1 j := by
  induction l generalizing t c t' with
  | nil =>
    simp only [genAll] at h
    cases h
    exact ⟨fun _ => rfl, fun ρ ρ1 w hr => ⟨ρ1, by simp [Code.run, execAll, Except.mapError], by simpa [execAll] using hr, fun _ _ _ => rfl⟩⟩
  | cons s l ih =>
    simp only [genAll, Option.bind_eq_bind, Option.bind_eq_some_iff] at h
    obtain ⟨⟨c1, t1⟩, h1, ⟨c2, t2⟩, h2, h3⟩ := h
    dsimp only at h2
    cases h3
    obtain ⟨s1, hs⟩ := stmt_ok (S := S) s _ _ _ h1 (hw s (by simp)) (hm s (by simp)) (hc s (by simp))
    obtain ⟨s2, hs2⟩ := ih _ _ _ h2 (fun s hs => hw s (by simp [hs])) (fun s hs => hm s (by simp [hs])) (fun s hs => hc s (by simp [hs]))
    refine ⟨fun j => (s2 j).trans (s1 j), fun ρ ρ1 w hr => ?_⟩
    obtain ⟨ρ', h3, h4, h5⟩ := hs ρ ρ1 w hr
    simp only [execAll]
    rcases hx : s.exec S cx.this ρ w with ⟨r, env, w1⟩
    rw [hx] at h3 h4
    simp only at h3 h4
    cases r with
    | ok u =>
      obtain ⟨ρ2, h6, h7, h8⟩ := hs2 env ρ' w1 fun x hx => h4 x hx (.inl rfl)
      refine ⟨ρ2, ?_, h7, fun j hj ht => ?_⟩
      · simp only [Code.run, h3]; exact h6
      · rw [h8 j hj (by rw [s1]; exact ht), h5 j hj ht]
    | error x =>
      refine ⟨ρ', by simp only [Code.run, h3, Except.mapError], fun y hy hl => h4 y hy (.inr (hl _ _ rfl)), h5⟩

end Verif.Ec
