import Verif.Names.Ast
/-
  Resolution of names by the compiler: core/kos_compiler_vars.c.

  Modelled: push_scope, pop_scope, push_function (130-196), kos_find_var (198-202),
  lookup_local_var (204-237), add_scope_ref (247-281), lookup_and_mark_var (283-350),
  find_local_var (352-370), define_var (382-440), process_scope (673-686),
  var_node (711-727), left_hand_side (729-759), identifier (761-772),
  parameter_defaults (811-839), function_literal (841-924), class_literal (926-972),
  catch_clause (974-1007), assignment (1046-1088), visit_node (1090-1229) and the
  activation of variables (1231-1287).

  Simplified:
  * The tree of the variables of a scope is a list.  Variables are found by name.
  * The stack of scopes is a list, the current scope first; two scopes of it are
    compared by their height.  cur_frame is the first scope of the stack which is
    of a function, or the global scope.
  * A variable is activated by name in its scope; kos_activate_var asserts that
    this is the same variable.  `fun_var` is in the scope in which the literal
    is, thus next to the scope of the function's parameters.
  * The results, which the code stores in the syntax tree, in the variables and
    in the scopes, are collected in lists.
  * Not modelled: `this`, `super`, `yield`, `import`, the interactive mode,
    running out of memory.
-/
namespace Verif.Names

/-- KOS_VAR: token, is_const, type and is_active. -/
structure Var where
  name : Nat
  node : Nat
  kind : Kind
  act  : Bool
  deriving DecidableEq, Repr

/-- KOS_SCOPE: variables, the function if the scope has is_function set, and
    whether the token of the scope's node is `defer`. -/
structure Scope where
  vars  : List Var
  fn    : Option Nat
  defer : Bool
  deriving DecidableEq, Repr

/-- What is known about an identifier: u.var and is_local_var. -/
structure Use where
  node  : Nat
  decl  : Nat
  loc   : Bool
  deriving DecidableEq, Repr

structure St where
  scopes   : List Scope
  /-- identifiers resolved so far -/
  uses     : List Use
  /-- `closures` of all frames: a function and the function whose variables
      it uses, none for the global scope -/
  closures : List (Nat × Option Nat)
  /-- variables of type VAR_INDEPENDENT_LOCAL or VAR_INDEPENDENT_ARGUMENT -/
  indep    : List Nat
  deriving DecidableEq, Repr

/-- kos_find_var (198-202) -/
def find : List Var → Nat → Option Var
  | [], _ => none
  | v :: r, x => if v.name = x then some v else find r x

/-- `var && var->is_active` -/
def seen (vs : List Var) (x : Nat) : Option Var :=
  match find vs x with
  | some v => if v.act then some v else none
  | none => none

/-- The loop of lookup_local_var, 218-233.  It looks at the first scope without
    checking that it is the global one; `lookLocal` has this check. -/
def loopLocal : List Scope → Nat → Option Var
  | [], _ => none
  | s :: r, x =>
    if s.fn.isSome then none
    else match seen s.vars x with
      | some v => some v
      | none => loopLocal r x

/-- lookup_local_var (204-237).  The loop does not start in the global scope,
    but it enters the global scope from a scope inside of it, because
    parent_scope is equal to scope after the first step. -/
def lookLocal : List Scope → Nat → Option Var
  | [], _ => none
  | [_], _ => none
  | s :: t :: r, x => loopLocal (s :: t :: r) x

/-- cur_frame, and the search for the owner of a scope in lookup_and_mark_var,
    319-320: the stack from the innermost function, or the global scope. -/
def frameOf : List Scope → List Scope
  | [] => []
  | [s] => [s]
  | s :: t :: r => if s.fn.isSome then s :: t :: r else frameOf (t :: r)

/-- The search in lookup_and_mark_var, 296-301: the variable and the stack from
    its scope. -/
def lookOuter : List Scope → Nat → Option (Var × List Scope)
  | [], _ => none
  | s :: r, x =>
    match seen s.vars x with
    | some v => some (v, s :: r)
    | none => lookOuter r x

/-- The functions for which add_scope_ref is called, 323-325. -/
def inner : List Scope → Nat → List Nat
  | [], _ => []
  | s :: r, h =>
    if r.length + 1 = h then []
    else match s.fn with
      | some f => f :: inner r h
      | none => inner r h

/-- add_scope_ref (247-281) -/
def addRef (l : List (Nat × Option Nat)) (c : Nat × Option Nat) : List (Nat × Option Nat) :=
  if l.contains c then l else c :: l

def ownerOf : List Scope → Option Nat
  | [] => none
  | s :: _ => s.fn

/-- lookup_and_mark_var (283-350), with the variable and the stack from its scope
    found. -/
def mark (n : Nat) (v : Var) (at_ : List Scope) (st : St) : St :=
  let frame := frameOf st.scopes
  let own := at_.length = frame.length
  let use : Use := ⟨n, v.node, decide own || v.kind.glob⟩
  if v.kind.glob || decide own then
    { st with uses := st.uses ++ [use] }
  else
    let closure := frameOf at_
    { scopes := st.scopes
      uses := st.uses ++ [use]
      closures := ((inner st.scopes closure.length).map (fun f => (f, ownerOf closure))).foldl
        addRef st.closures
      indep := v.node :: st.indep }

/-- identifier (761-772): the variable and the new state. -/
def ident (n x : Nat) (st : St) : Except Err (Var × St) :=
  match lookLocal st.scopes x with
  | some v => .ok (v, { st with uses := st.uses ++ [⟨n, v.node, true⟩] })
  | none =>
    match lookOuter (frameOf st.scopes) x with
    | some (v, t) => .ok (v, mark n v t st)
    | none => .error (.undefined n)

/-- find_local_var (352-370) -/
def findLocal : List Scope → Nat → Bool
  | [], _ => false
  | s :: r, x =>
    if (find s.vars x).isSome then true
    else if s.defer then findLocal r x
    else false

def addVar (v : Var) : List Scope → List Scope
  | [] => []
  | s :: r => { s with vars := v :: s.vars } :: r

/-- define_var (382-440) and the change of is_active after it. -/
def define (k : Kind) (act : Bool) (d : Decl) (st : St) : Except Err St :=
  if findLocal st.scopes d.name then .error (.redefined d.node)
  else .ok { st with scopes := addVar ⟨d.name, d.node, k, act⟩ st.scopes }

/-- var_node (711-727), parameters in function_literal (862-896) -/
def defineAll (k : Kind) (act : Bool) : List Decl → St → Except Err St
  | [], st => .ok st
  | d :: r, st =>
    match define k act d st with
    | .ok st => defineAll k act r st
    | .error e => .error e

def setVars (b : Bool) (x : Nat) : List Var → List Var
  | [] => []
  | v :: r => if v.name = x then { v with act := b } :: r else v :: setVars b x r

def setAt (b : Bool) (x : Nat) : List Scope → List Scope
  | [] => []
  | s :: r => { s with vars := setVars b x s.vars } :: r

/-- kos_activate_var (1231-1250), and the assignments to is_active in
    catch_clause -/
def setTop (b : Bool) (x : Nat) (st : St) : St := { st with scopes := setAt b x st.scopes }

def setBelow (b : Bool) (x : Nat) : List Scope → List Scope
  | [] => []
  | s :: r => s :: setAt b x r

/-- kos_activate_self_ref_func, kos_deactivate_self_ref_func (1271-1287) -/
def setSelf (b : Bool) : Option Nat → St → St
  | none, st => st
  | some x, st => { st with scopes := setBelow b x st.scopes }

/-- kos_activate_new_vars (1252-1269) -/
def activate : List Decl → St → St
  | [], st => st
  | d :: r, st => activate r (setTop true d.name st)

/-- push_scope (130-175) -/
def push (f : Option Nat) (defer : Bool) (st : St) : St :=
  { st with scopes := ⟨[], f, defer⟩ :: st.scopes }

/-- pop_scope (177-185) -/
def pop (st : St) : St := { st with scopes := st.scopes.tail }

/-- class_literal (926-972): fun_var is for properties which are functions. -/
def methodSelf (fv : Option Nat) : E → Option Nat
  | .fn .. => fv
  | .mem .. => fv
  | _ => none

/-- visit_node (1090-1229).  `fv` is fun_var, given to function_literal and
    class_literal only. -/
def visit : Option Nat → E → St → Except Err St
  | _, .nop, st => .ok st
  | _, .op a b, st =>
    match visit none a st with
    | .ok st => visit none b st
    | .error e => .error e
  | _, .use n x, st =>
    match ident n x st with
    | .ok (_, st) => .ok st
    | .error e => .error e
  | _, .asg n x e, st =>
    match ident n x st with
    | .ok (v, st) => if v.kind.const then .error (.constAssign n) else visit none e st
    | .error e => .error e
  | _, .decl k xs e, st =>
    match defineAll k false xs st with
    | .ok st =>
      match visit none e st with
      | .ok st => .ok (activate xs st)
      | .error e => .error e
    | .error e => .error e
  | _, .self k x e, st =>
    match define k false x st with
    | .ok st =>
      match visit (some x.name) e st with
      | .ok st => .ok (activate [x] st)
      | .error e => .error e
    | .error e => .error e
  | fv, .fn f ps body defs, st =>
    match defineAll ⟨false, false⟩ true ps (push (some f) false st) with
    | .ok st =>
      match visit none body (push none false (setSelf true fv st)) with
      | .ok st => visit none defs (pop (setSelf false fv (pop st)))
      | .error e => .error e
    | .error e => .error e
  | fv, .cls ext ms, st =>
    match visit none ext st with
    | .ok st => visit (methodSelf fv ms) ms st
    | .error e => .error e
  | fv, .mem a b, st =>
    match visit (methodSelf fv a) a st with
    | .ok st => visit (methodSelf fv b) b st
    | .error e => .error e
  | _, .scope d e, st =>
    match visit none e (push none d st) with
    | .ok st => .ok (pop st)
    | .error e => .error e
  | _, .catch c x h, st =>
    match define ⟨c, false⟩ false x st with
    | .ok st =>
      match visit none h (push none false (setTop true x.name st)) with
      | .ok st => .ok (setTop false x.name (pop st))
      | .error e => .error e
    | .error e => .error e

/-- The variables known before: init_global_scope (104-128). -/
def known : List (Decl × Bool) → List Var
  | [] => []
  | (d, c) :: r => ⟨d.name, d.node, ⟨c, true⟩, true⟩ :: known r

/-- kos_compiler_process_vars (1305-1313): the statements of a module, in the
    global scope. -/
def process (globals : List (Decl × Bool)) (e : E) : Except Err St :=
  visit none e ⟨[⟨known globals, none, false⟩], [], [], []⟩

end Verif.Names
