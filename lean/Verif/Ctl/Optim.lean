import Verif.Ctl.Safe

/-
Removal of unreachable statements, core/kos_compiler_optim.c.

Modelled with `optimize` set, as kos_compiler_process_module always does (core/kos_compiler.c:6509).  The optimizer changes the syntax tree in
place; here it gives a new tree.  It runs several times, until nothing changes; `opt` is one pass.  Folding of constants (C12), removal of
unused variables and of expressions without effect are not in this model: conditions are what folding has left of them.
-/
namespace Verif.Ctl

variable {σ V : Type}

/-- Terminality: how a statement after which nothing else of the scope runs may end.  `TERM_BREAK`, `TERM_THROW`, `TERM_RETURN`,
core/kos_compiler_optim.c:22-27. -/
structure Term where
  brk : Bool
  thr : Bool
  ret : Bool
  deriving DecidableEq, Repr

/-- `TERM_NONE` -/
def Term.none : Term := ⟨false, false, false⟩

/-- Is any bit set. -/
def Term.any (t : Term) : Bool := t.brk || t.thr || t.ret

/-- `t1 | t2` -/
def Term.or (t u : Term) : Term := ⟨t.brk || u.brk, t.thr || u.thr, t.ret || u.ret⟩

/-- kos_node_is_truthy and kos_node_is_falsy, core/kos_compiler_optim.c:185-239; only constants are known. -/
def truth : Cond → Option Bool
  | .leaf _ known => known
  | _ => .none

mutual
/-- visit_node, core/kos_compiler_optim.c:2073-2241.  `ff` is the number of the expression `false`. -/
def opt (ff : Nat) : Stmt → Stmt × Term
  | .skip => (.skip, .none)
  | .act i => (.act i, .none)
  -- process_scope, 410-452
  | .seq a b =>
    if (opt ff a).2.any then opt ff a else (.seq (opt ff a).1 (opt ff b).1, (opt ff b).2)
  -- if_stmt, 454-514
  | .ite c t =>
    match truth c with
    | some true => opt ff t
    | some false => (.skip, .none)
    | .none => (.ite c (opt ff t).1, .none)
  | .itee c t e =>
    match truth c with
    | some true => opt ff t
    | some false => opt ff e
    | .none =>
      (.itee c (opt ff t).1 (opt ff e).1, if (opt ff t).2.any && (opt ff e).2.any then (opt ff t).2.or (opt ff e).2 else .none)
  -- while_stmt, 549-588.  The condition of a terminal loop is replaced by `true`, which it is.
  | .while c b =>
    match truth c with
    | some false => (.while c .skip, .none)
    | some true => (.while c (opt ff b).1, if (opt ff b).2.brk then .none else (opt ff b).2)
    | .none => (.while c (opt ff b).1, .none)
  -- repeat_stmt, 516-547
  | .repeat b c =>
    (.repeat (opt ff b).1 (if (opt ff b).2.any then .leaf ff (some false) else c), if (opt ff b).2.brk then .none else (opt ff b).2)
  | .forIn i j b => (.forIn i j (opt ff b).1, .none)
  -- switch_stmt, 667-707
  | .switch i cs =>
    (.switch i (optCases ff cs).1, if (optCases ff cs).2.1 && (dflt cs 0).isSome then (optCases ff cs).2.2 else .none)
  | .jump .brk => (.jump .brk, ⟨true, false, false⟩)
  | .jump .cont => (.jump .cont, ⟨true, false, false⟩)
  | .jump .fall => (.jump .fall, .none)
  | .ret i => (.ret i, ⟨false, false, true⟩)
  | .throw i => (.throw i, ⟨false, true, false⟩)
  | .assert c k => (.assert c k, .none)
  -- try_stmt, 590-665
  | .tryCatch b h =>
    (.tryCatch (opt ff b).1 (opt ff h).1,
      if (opt ff b).2.any && (opt ff h).2.any then Term.or { (opt ff b).2 with thr := false } (opt ff h).2 else .none)
  | .tryDefer b f => (.tryDefer (opt ff b).1 (opt ff f).1, (opt ff f).2)

/-- case_stmt, 709-734, and the loop of switch_stmt: the cases, whether all of them are terminal, and the terminalities together. -/
def optCases (ff : Nat) : Cases → Cases × Bool × Term
  | .nil => (.nil, true, .none)
  | .cons test b ft rest =>
    let t := if (opt ff b).2.brk then Term.none else (opt ff b).2
    (.cons test (opt ff b).1 (ft && !(opt ff b).2.any) (optCases ff rest).1, t.any && (optCases ff rest).2.1, t.or (optCases ff rest).2.2)
end

/-! ### Which jumps leave a statement -/

mutual
/-- `s` has a jump `k` which leads out of `s`. -/
def Leaves (k : Kind) : Stmt → Bool
  | .seq a b => Leaves k a || Leaves k b
  | .ite _ t => Leaves k t
  | .itee _ t e => Leaves k t || Leaves k e
  | .while _ b => k == .fall && Leaves k b
  | .repeat b _ => k == .fall && Leaves k b
  | .forIn _ _ b => k == .fall && Leaves k b
  | .switch _ cs => k == .cont && LeavesCs k cs
  | .jump j => j == k
  | .tryCatch b h => Leaves k b || Leaves k h
  | .tryDefer b f => Leaves k b || Leaves k f
  | _ => false

def LeavesCs (k : Kind) : Cases → Bool
  | .nil => false
  | .cons _ b _ rest => Leaves k b || LeavesCs k rest
end

/-- Does the optimizer know of the jumps in the body of a loop: it does if it takes the body for one which may run to its end, or for one
which ends with `break` or `continue`. -/
def Seen (t : Term) : Prop := t.any = false ∨ t.brk = true

instance (t : Term) : Decidable (Seen t) := inferInstanceAs (Decidable (_ ∨ _))

mutual
/-- Every `break` and `continue` is known to the optimizer where it matters. -/
def Counted (ff : Nat) : Stmt → Prop
  | .seq a b => Counted ff a ∧ Counted ff b
  | .ite _ t => Counted ff t
  | .itee _ t e => Counted ff t ∧ Counted ff e
  | .while c b => Counted ff b ∧ (truth c = some true → Leaves .brk b = true → Seen (opt ff b).2)
  | .repeat b _ => Counted ff b ∧ (Leaves .brk b = true → Seen (opt ff b).2) ∧ (Leaves .cont b = true → (opt ff b).2.any = false)
  | .forIn _ _ b => Counted ff b
  | .switch _ cs => CountedCs ff cs
  | .tryCatch b h => Counted ff b ∧ Counted ff h
  | .tryDefer b f => Counted ff b ∧ Counted ff f
  | _ => True

def CountedCs (ff : Nat) : Cases → Prop
  | .nil => True
  | .cons _ b _ rest => (Counted ff b ∧ (Leaves .brk b = true → Seen (opt ff b).2)) ∧ CountedCs ff rest
end

end Verif.Ctl
