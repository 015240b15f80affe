import Verif.Arr.InsertSpec

/-!
C17: arrays behave as mathematical sequences.

The theorem is about a store of arrays on which any history of operations is run, including insertion of (part of) an
array into itself.  Each operation comes with an oracle telling which allocations succeed.
-/
namespace Verif.Props

open Verif.Arr

/-- Operations on a store of arrays (arrays are numbered in order of creation). -/
inductive ArrOp (V : Type)
  | new (n : Nat)
  | read (a : Nat) (i : Int)
  | write (a : Nat) (i : Int) (v : V)
  | cas (a : Nat) (i : Int) (old new : V)
  | reserve (a : Nat) (n : Nat)
  | resize (a : Nat) (n : Nat)
  | slice (a : Nat) (b e : Int)
  | insert (a : Nat) (b e : Int) (src : Nat) (sb se : Int)
  | push (a : Nat) (v : V)
  | pop (a : Nat)
  | fill (a : Nat) (b e : Int) (v : V)
  | lock (a : Nat)

/-- What the program sees. -/
inductive ArrObs (V : Type)
  | unit | val (v : V) | idx (n : Nat) | arr (a : Nat) | exc (e : Err) | noArr
  deriving DecidableEq

/-! ### Independent specification: lists -/
namespace ArrSpec

variable {V : Type}

/-- Element index, negative from the end. -/
def index (i : Int) (n : Nat) : Option Nat :=
  if 0 ≤ i ∧ i < n then some i.toNat else if i < 0 ∧ 0 ≤ i + n then some (i + n).toNat else none

/-- Position in a range, negative from the end, clamped. -/
def clamp (i : Int) (n : Nat) : Nat := if i < 0 then (i + n).toNat else min i.toNat n

def slice (l : List V) (b e : Int) : List V := (l.take (clamp e l.length)).drop (clamp b l.length)

def splice (l : List V) (b e : Int) (xs : List V) : List V :=
  l.take (clamp b l.length) ++ xs ++ l.drop (max (clamp b l.length) (clamp e l.length))

def fill (l : List V) (b e : Int) (v : V) : List V :=
  l.mapIdx fun j x => if clamp b l.length ≤ j ∧ j < clamp e l.length then v else x

/-- A sequence and whether it is locked. -/
abbrev Store (V : Type) := List (Bool × List V)

def upd (s : Store V) (a : Nat) (f : List V → List V × ArrObs V) : Store V × ArrObs V :=
  match s[a]? with
  | none => (s, .noArr)
  | some (true, _) => (s, .exc .readOnly)
  | some (false, l) => let r := f l; (s.set a (false, r.1), r.2)

def step [DecidableEq V] (void : V) (s : Store V) : ArrOp V → Store V × ArrObs V
  | .new n => (s ++ [(false, List.replicate n void)], .arr s.length)
  | .read a i =>
    match s[a]? with
    | none => (s, .noArr)
    | some (_, l) =>
      match (index i l.length).bind (l[·]?) with
      | none => (s, .exc .badIndex)
      | some v => (s, .val v)
  | .write a i v => upd s a fun l =>
      match index i l.length with
      | none => (l, .exc .badIndex)
      | some k => (l.set k v, .unit)
  | .cas a i old new => upd s a fun l =>
      match index i l.length with
      | none => (l, .exc .badIndex)
      | some k =>
        match l[k]? with
        | none => (l, .exc .badIndex)
        | some cur => (if cur = old then l.set k new else l, .val cur)
  | .reserve a _ => upd s a fun l => (l, .unit)
  | .resize a n => upd s a fun l => (l.take n ++ List.replicate (n - l.length) void, .unit)
  | .slice a b e =>
    match s[a]? with
    | none => (s, .noArr)
    | some (_, l) => (s ++ [(false, slice l b e)], .arr s.length)
  | .insert a b e src sb se =>
    match s[src]? with
    | none => (s, .noArr)
    | some (_, m) => upd s a fun l => (splice l b e (slice m sb se), .unit)
  | .push a v => upd s a fun l => (l ++ [v], .idx l.length)
  | .pop a => upd s a fun l =>
      match l.getLast? with
      | none => (l, .exc .empty)
      | some v => (l.dropLast, .val v)
  | .fill a b e v => upd s a fun l => (fill l b e v, .unit)
  | .lock a =>
    match s[a]? with
    | none => (s, .noArr)
    | some (_, l) => (s.set a (true, l), .unit)

/-- Indices of elements are C `int`s.  For insertion of a part of an array into itself, the case is excluded in which the
inserted part lies after the replaced part and is shorter (and not empty); see `C17_insert_violated`. -/
def allowed (s : Store V) : ArrOp V → Prop
  | .read _ i => -2147483648 ≤ i ∧ i ≤ 2147483647
  | .write _ i _ => -2147483648 ≤ i ∧ i ≤ 2147483647
  | .cas _ i _ _ => -2147483648 ≤ i ∧ i ≤ 2147483647
  | .insert a b e src sb se =>
    a = src → ∀ p ∈ s[a]?, clamp e p.2.length ≤ clamp sb p.2.length → clamp b p.2.length ≤ clamp sb p.2.length →
      clamp sb p.2.length < clamp se p.2.length →
      clamp e p.2.length - clamp b p.2.length ≤ clamp se p.2.length - clamp sb p.2.length
  | _ => True

/-- The length for which an operation needs room; `none` if it never allocates. -/
def wanted (s : Store V) : ArrOp V → Option Nat
  | .new n => some n
  | .reserve _ n => some n
  | .resize _ n => some n
  | .slice a b e => s[a]?.map fun p => (slice p.2 b e).length
  | .insert a b e src sb se => s[a]?.bind fun p => s[src]?.map fun q => (splice p.2 b e (slice q.2 sb se)).length
  | .push a _ => s[a]?.map fun p => p.2.length + 1
  | _ => none

/-- An operation may fail for lack of memory only if an allocation was refused, or if the length is at least half of the
limit of 2^28 elements. -/
def mayFail (mem : Nat → Bool) (s : Store V) (op : ArrOp V) : Prop :=
  ∃ n ∈ wanted s op, (∃ c, mem c = false) ∨ 134217728 ≤ n

/-- The observations of a run (`none`: undefined behaviour) are those of sequences, up to the first operation which is not
`allowed`.  An operation which fails for lack of memory changes nothing. -/
def Good [DecidableEq V] (void : V) : Store V → List (ArrOp V × (Nat → Bool)) → Option (List (ArrObs V)) → Prop
  | _, [], r => r = some []
  | t, (op, mem) :: h, r => allowed t op → ∃ o t' r',
      ((t', o) = step void t op ∨ (t' = t ∧ o = .exc .outOfMemory ∧ mayFail mem t op)) ∧ r = r'.map (o :: ·) ∧ Good void t' h r'

end ArrSpec

/-! ### The code, run on a store of arrays -/
namespace ArrRun

variable {V : Type}

abbrev Store (V : Type) := List (A V)

def on {α : Type} (s : Store V) (a : Nat) (f : A V → Out V α) (obs : α → ArrObs V) : Option (Store V × ArrObs V) :=
  match s[a]? with
  | none => some (s, .noArr)
  | some x =>
    match f x with
    | .bad => none
    | .raise e x' => some (s.set a x', .exc e)
    | .ok r x' => some (s.set a x', obs r)

def step [DecidableEq V] (mem : Nat → Bool) (void : V) (s : Store V) : ArrOp V → Option (Store V × ArrObs V)
  | .new n =>
    match newArray mem void n with
    | none => some (s, .exc .outOfMemory)
    | some x => some (s ++ [x], .arr s.length)
  | .read a i => on s a (fun x => read x i) .val
  | .write a i v => on s a (fun x => write x i v) (fun _ => .unit)
  | .cas a i old new => on s a (fun x => cas x i old new) .val
  | .reserve a n => on s a (fun x => reserve mem x n) (fun _ => .unit)
  | .resize a n => on s a (fun x => resize mem x void n) (fun _ => .unit)
  | .slice a b e =>
    match s[a]? with
    | none => some (s, .noArr)
    | some x =>
      match slice mem x b e with
      | .bad => none
      | .raise e x' => some (s.set a x', .exc e)
      | .ok r x' => some (s.set a x' ++ [r], .arr s.length)
  | .insert a b e src sb se =>
    match s[src]? with
    | none => some (s, .noArr)
    | some o => on s a (fun x => insert mem void x b e (if a = src then none else some o) sb se) (fun _ => .unit)
  | .push a v => on s a (fun x => push mem x v) .idx
  | .pop a => on s a (fun x => pop mem void x) .val
  | .fill a b e v => on s a (fun x => fill x b e v) (fun _ => .unit)
  | .lock a =>
    match s[a]? with
    | none => some (s, .noArr)
    | some x => some (s.set a { x with ro := true }, .unit)   -- core/kos_entity.c:508

def run [DecidableEq V] (void : V) : Store V → List (ArrOp V × (Nat → Bool)) → Option (List (ArrObs V))
  | _, [] => some []
  | s, (op, mem) :: h =>
    match step mem void s op with
    | none => none
    | some (s', o) => (run void s' h).map (o :: ·)

end ArrRun

variable {V : Type}

/-- The store of arrays holds the store of sequences. -/
def Sim (s : ArrRun.Store V) (t : ArrSpec.Store V) : Prop :=
  s.length = t.length ∧ ∀ (a : Nat) (x : A V), s[a]? = some x → ∃ l, t[a]? = some (x.ro, l) ∧ Rep x l

theorem Sim.get {s : ArrRun.Store V} {t : ArrSpec.Store V} (h : Sim s t) (a : Nat) :
    (s[a]? = none ∧ t[a]? = none) ∨ ∃ x l, s[a]? = some x ∧ t[a]? = some (x.ro, l) ∧ Rep x l := by
  cases hx : s[a]? with
  | none =>
    left; refine ⟨rfl, ?_⟩
    rw [List.getElem?_eq_none_iff] at hx ⊢
    rw [← h.1]; exact hx
  | some x =>
    right
    obtain ⟨l, h1, h2⟩ := h.2 a x hx
    exact ⟨x, l, rfl, h1, h2⟩

theorem Sim.set {s : ArrRun.Store V} {t : ArrSpec.Store V} (h : Sim s t) (a : Nat) (x : A V) (l : List V) (hr : Rep x l) :
    Sim (s.set a x) (t.set a (x.ro, l)) := by
  refine ⟨by simpa using h.1, fun b y hb => ?_⟩
  by_cases hab : a = b
  · subst hab
    have hlt : a < s.length := by
      have := (List.getElem?_eq_some_iff.mp hb).1; simpa using this
    rw [List.getElem?_set_self hlt, Option.some.injEq] at hb
    subst hb
    exact ⟨l, List.getElem?_set_self (by rw [← h.1]; exact hlt), hr⟩
  · rw [List.getElem?_set_ne hab] at hb
    obtain ⟨m, h1, h2⟩ := h.2 b y hb
    exact ⟨m, by rw [List.getElem?_set_ne hab]; exact h1, h2⟩

theorem Sim.push {s : ArrRun.Store V} {t : ArrSpec.Store V} (h : Sim s t) (x : A V) (l : List V) (hr : Rep x l) :
    Sim (s ++ [x]) (t ++ [(x.ro, l)]) := by
  refine ⟨by simpa using h.1, fun b y hb => ?_⟩
  by_cases hlt : b < s.length
  · rw [List.getElem?_append_left hlt] at hb
    obtain ⟨m, h1, h2⟩ := h.2 b y hb
    exact ⟨m, by rw [List.getElem?_append_left (by rw [← h.1]; exact hlt)]; exact h1, h2⟩
  · rw [List.getElem?_append_right (by omega)] at hb
    have : b - s.length = 0 := by
      have := (List.getElem?_eq_some_iff.mp hb).1; simp at this; omega
    rw [this] at hb
    simp only [List.getElem?_cons_zero, Option.some.injEq] at hb
    subst hb
    refine ⟨l, ?_, hr⟩
    rw [List.getElem?_append_right (by rw [← h.1]; omega), ← h.1, this]; rfl

theorem set_same {α : Type} (s : List α) (a : Nat) (x : α) (h : s[a]? = some x) : s.set a x = s := by
  apply List.ext_getElem?
  intro j
  by_cases hj : a = j
  · subst hj
    rw [List.getElem?_set_self (List.getElem?_eq_some_iff.mp h).1, h]
  · rw [List.getElem?_set_ne hj]

theorem clamp_eq (i : Int) (n : Nat) : (fixIndex i n).toNat = ArrSpec.clamp i n := fixIndex_toNat i n

theorem index_eq (i : Int) (n : Nat) (h1 : -2147483648 ≤ i) (h2 : i ≤ 2147483647) (hn : n ≤ maxSize + 3) :
    ArrSpec.index i n = if bufIdx i n < n then some (bufIdx i n) else none := by
  obtain ⟨b1, b2, b3⟩ := bufIdx_eq i n h1 h2 hn
  unfold ArrSpec.index
  by_cases hi : 0 ≤ i
  · rw [b1 hi]
    by_cases hl : i < n
    · rw [if_pos ⟨hi, hl⟩, if_pos (by omega)]
    · rw [if_neg (by omega), if_neg (by omega), if_neg (by omega)]
  · rw [if_neg (by omega)]
    by_cases hl : 0 ≤ i + n
    · rw [b2 (by omega) hl, if_pos (by omega), if_pos (by omega)]
    · have := b3 (by omega) (by omega)
      rw [if_neg (by omega), if_neg (by omega)]

/-- Outcome of one operation against the specification. -/
def StepOk [DecidableEq V] (mem : Nat → Bool) (void : V) (s : ArrRun.Store V) (t : ArrSpec.Store V) (op : ArrOp V) : Prop :=
  ∃ s' o, ArrRun.step mem void s op = some (s', o) ∧
    ((Sim s' (ArrSpec.step void t op).1 ∧ o = (ArrSpec.step void t op).2) ∨ (Sim s' t ∧ o = .exc .outOfMemory ∧ ArrSpec.mayFail mem t op))

/-- An operation on one array, given what it does to the sequence. -/
theorem on_ok {α : Type} (s : ArrRun.Store V) (t : ArrSpec.Store V) (h : Sim s t) (a : Nat) (f : A V → Out V α) (obs : α → ArrObs V)
    (g : List V → List V × ArrObs V) (P : Prop)
    (hro : ∀ x, x.ro = true → f x = .raise .readOnly x)
    (hok : ∀ x l, s[a]? = some x → t[a]? = some (false, l) → Rep x l → x.ro = false →
      (∃ x' r, f x = .ok r x' ∧ Rep x' (g l).1 ∧ x'.ro = false ∧ obs r = (g l).2) ∨
      (∃ e, f x = .raise e x ∧ (g l).1 = l ∧ (g l).2 = .exc e) ∨ (f x = .raise .outOfMemory x ∧ P)) :
    ∃ s' o, ArrRun.on s a f obs = some (s', o) ∧
      ((Sim s' (ArrSpec.upd t a g).1 ∧ o = (ArrSpec.upd t a g).2) ∨ (Sim s' t ∧ o = .exc .outOfMemory ∧ P)) := by
  unfold ArrRun.on ArrSpec.upd
  rcases h.get a with ⟨h1, h2⟩ | ⟨x, l, h1, h2, h3⟩
  · rw [h1, h2]
    exact ⟨_, _, rfl, Or.inl ⟨h, rfl⟩⟩
  · rw [h1, h2]
    cases hr : x.ro with
    | true =>
      simp only [hro x hr]
      exact ⟨_, _, rfl, Or.inl ⟨by rw [set_same _ _ _ h1]; exact h, rfl⟩⟩
    | false =>
      rw [hr] at h2
      rcases hok x l h1 h2 h3 hr with ⟨x', r, e1, e2, e3, e4⟩ | ⟨e, e1, e2, e3⟩ | ⟨e1, hP⟩
      · simp only [e1]
        refine ⟨_, _, rfl, Or.inl ⟨?_, e4⟩⟩
        have := h.set a x' (g l).1 e2
        rw [e3] at this; exact this
      · simp only [e1]
        refine ⟨_, _, rfl, Or.inl ⟨?_, e3.symm⟩⟩
        rw [set_same _ _ _ h1, e2, set_same _ _ _ h2]; exact h
      · simp only [e1]
        exact ⟨_, _, rfl, Or.inr ⟨by rw [set_same _ _ _ h1]; exact h, rfl, hP⟩⟩

theorem slice_eq (l : List V) (b e : Int) :
    (l.drop (fixIndex b l.length).toNat).take ((fixIndex e l.length).toNat - (fixIndex b l.length).toNat) = ArrSpec.slice l b e := by
  rw [ArrSpec.slice, List.drop_take, clamp_eq, clamp_eq]

theorem fill_eq (l : List V) (B E : Nat) (v : V) (hB : B ≤ l.length) (hE : E ≤ l.length) :
    l.take B ++ List.replicate (E - B) v ++ l.drop (max B E) =
      l.mapIdx fun j x => if B ≤ j ∧ j < E then v else x := by
  apply List.ext_getElem?
  intro j
  have l1 : (l.take B).length = B := by rw [List.length_take]; omega
  rw [List.getElem?_mapIdx, List.append_assoc, List.getElem?_append, l1]
  by_cases h1 : j < B
  · rw [if_pos h1, List.getElem?_take, if_pos h1, List.getElem?_eq_getElem (by omega)]
    simp only [Option.map_some]
    rw [if_neg (by omega)]
  · rw [if_neg h1, List.getElem?_append, List.length_replicate]
    by_cases h2 : j - B < E - B
    · rw [if_pos h2, List.getElem?_replicate, if_pos h2, List.getElem?_eq_getElem (by omega)]
      simp only [Option.map_some]
      rw [if_pos (by omega)]
    · rw [if_neg h2, List.getElem?_drop, show max B E + (j - B - (E - B)) = j by omega]
      cases l[j]? with
      | none => rfl
      | some x => simp only [Option.map_some]; rw [if_neg (by omega)]

theorem newArray_rep (mem : Nat → Bool) (void : V) (n : Nat) (x : A V) (h : newArray mem void n = some x) :
    Rep x (List.replicate n void) ∧ x.ro = false := by
  unfold newArray at h
  by_cases hm : n < maxSize ∧ mem n = true
  · rw [if_pos hm] at h
    by_cases hz : n = 0
    · rw [if_pos hz, Option.some.injEq] at h
      subst h; subst hz
      exact ⟨⟨rfl, rfl⟩, rfl⟩
    · rw [if_neg hz, Option.some.injEq] at h
      subst h
      have := grant_ge n (by omega)
      refine ⟨⟨by simp, grant n - n, by simp, by simp; omega, ?_⟩, rfl⟩
      simp only [List.length_append, List.length_replicate]; omega
  · rw [if_neg hm] at h; cases h

theorem insert_ok [DecidableEq V] (mem : Nat → Bool) (void : V) (x : A V) (l : List V) (b e : Int) (src : Option (A V)) (ls : Option (List V))
    (sb se : Int) (h : Rep x l) (hro : x.ro = false)
    (hsrc : match src, ls with | none, none => True | some o, some m => Rep o m | _, _ => False)
    (hal : src = none → ArrSpec.clamp e l.length ≤ ArrSpec.clamp sb l.length → ArrSpec.clamp b l.length ≤ ArrSpec.clamp sb l.length →
      ArrSpec.clamp sb l.length < ArrSpec.clamp se l.length →
      ArrSpec.clamp e l.length - ArrSpec.clamp b l.length ≤ ArrSpec.clamp se l.length - ArrSpec.clamp sb l.length) :
    (∃ x', insert mem void x b e src sb se = .ok () x' ∧
      Rep x' (ArrSpec.splice l b e (ArrSpec.slice (srcList l ls) sb se)) ∧ x'.ro = false) ∨
    (insert mem void x b e src sb se = .raise .outOfMemory x ∧ Refused mem (ArrSpec.splice l b e (ArrSpec.slice (srcList l ls) sb se)).length) := by
  have fb := fixIndex_nonneg b l.length
  have fe := fixIndex_nonneg e l.length
  have cb := clamp_eq b l.length
  have ce := clamp_eq e l.length
  have cs := clamp_eq sb (srcList l ls).length
  have cse := clamp_eq se (srcList l ls).length
  have fsb := fixIndex_nonneg sb (srcList l ls).length
  have fse := fixIndex_nonneg se (srcList l ls).length
  obtain ⟨⟨SB, SE⟩, hSR⟩ : ∃ p, p = srcRange (srcList l ls).length sb se := ⟨_, rfl⟩
  have hbug : ¬ (src = none ∧ (if fixIndex e l.length < fixIndex b l.length then fixIndex b l.length else fixIndex e l.length) ≤ SB ∧ 0 < SE - SB ∧
      SE - SB < (if fixIndex e l.length < fixIndex b l.length then fixIndex b l.length else fixIndex e l.length) - fixIndex b l.length) := by
    rintro ⟨h1, h2, h3, h4⟩
    have hls : ls = none := by
      subst h1
      cases ls with
      | none => rfl
      | some m => exact hsrc.elim
    subst hls
    have el : srcList l none = l := rfl
    rw [el] at cs cse fsb fse hSR
    have hal' := hal h1
    unfold srcRange at hSR
    by_cases hne : sb ≠ se
    · rw [if_pos hne, Prod.mk.injEq] at hSR
      obtain ⟨e1, e2⟩ := hSR
      by_cases c1 : fixIndex e l.length < fixIndex b l.length
      · rw [if_pos c1] at h4; omega
      · rw [if_neg c1] at h2 h4
        by_cases c2 : fixIndex se l.length < fixIndex sb l.length
        · rw [if_pos c2] at e2; omega
        · rw [if_neg c2] at e2; omega
    · rw [if_neg hne, Prod.mk.injEq] at hSR
      omega
  have key : l.take (fixIndex b l.length).toNat ++ ((srcList l ls).drop SB.toNat).take (SE - SB).toNat ++
      l.drop (if fixIndex e l.length < fixIndex b l.length then fixIndex b l.length else fixIndex e l.length).toNat
      = ArrSpec.splice l b e (ArrSpec.slice (srcList l ls) sb se) := by
    unfold ArrSpec.splice
    rw [← cb, ← ce]
    have d1 : (if fixIndex e l.length < fixIndex b l.length then fixIndex b l.length else fixIndex e l.length).toNat
        = max (fixIndex b l.length).toNat (fixIndex e l.length).toNat := by split <;> omega
    rw [d1, ← slice_eq]
    congr 2
    unfold srcRange at hSR
    by_cases hne : sb ≠ se
    · rw [if_pos hne, Prod.mk.injEq] at hSR
      rw [hSR.1, hSR.2]
      congr 1
      split <;> omega
    · rw [if_neg hne, Prod.mk.injEq] at hSR
      have : sb = se := by omega
      rw [show (SE - SB).toNat = 0 by omega, this, Nat.sub_self]; simp
  rcases insert_spec mem void x l b e src ls sb se h hro hsrc _ _ SB SE rfl rfl hSR hbug with ⟨x', e1, e2, e3⟩ | ⟨e1, hn⟩
  · left
    refine ⟨x', e1, ?_, e2⟩
    rw [← key]; exact e3
  · right
    refine ⟨e1, ?_⟩
    rw [← key]
    have hE : (if fixIndex e l.length < fixIndex b l.length then fixIndex b l.length else fixIndex e l.length) ≤ l.length ∧
        fixIndex b l.length ≤ (if fixIndex e l.length < fixIndex b l.length then fixIndex b l.length else fixIndex e l.length) := by
      split <;> omega
    have hS : SB ≤ SE ∧ (SB < SE → 0 ≤ SB ∧ SE ≤ (srcList l ls).length) := by
      unfold srcRange at hSR
      by_cases hne : sb ≠ se
      · rw [if_pos hne, Prod.mk.injEq] at hSR
        obtain ⟨q1, q2⟩ := hSR
        split at q2 <;> omega
      · rw [if_neg hne, Prod.mk.injEq] at hSR
        omega
    have len : (l.take (fixIndex b l.length).toNat ++ ((srcList l ls).drop SB.toNat).take (SE - SB).toNat ++
        l.drop (if fixIndex e l.length < fixIndex b l.length then fixIndex b l.length else fixIndex e l.length).toNat).length
        = ((l.length : Int) - ((if fixIndex e l.length < fixIndex b l.length then fixIndex b l.length else fixIndex e l.length) - fixIndex b l.length)
            + (SE - SB)).toNat := by
      simp only [List.length_append, List.length_take, List.length_drop]
      generalize (if fixIndex e l.length < fixIndex b l.length then fixIndex b l.length else fixIndex e l.length) = E at *
      omega
    rw [len]; exact hn

theorem newArray_none (mem : Nat → Bool) (void : V) (n : Nat) (h : newArray mem void n = none) : Refused mem n := by
  unfold newArray at h
  by_cases hm : n < maxSize ∧ mem n = true
  · rw [if_pos hm] at h
    split at h <;> cases h
  · exact .of mem n n hm (by omega)

theorem mayFail_of (mem : Nat → Bool) (t : ArrSpec.Store V) (op : ArrOp V) (n : Nat) (hw : ArrSpec.wanted t op = some n)
    (h : Refused mem n) : ArrSpec.mayFail mem t op := by
  refine ⟨n, hw, ?_⟩
  rcases h with h | h
  · exact Or.inl h
  · right; unfold maxSize at h; omega

theorem step_ok [DecidableEq V] (mem : Nat → Bool) (void : V) (s : ArrRun.Store V) (t : ArrSpec.Store V) (op : ArrOp V)
    (h : Sim s t) (ha : ArrSpec.allowed t op) : StepOk mem void s t op := by
  unfold StepOk
  cases op with
  | new n =>
    simp only [ArrRun.step, ArrSpec.step]
    cases hn : newArray mem void n with
    | none => exact ⟨_, _, rfl, Or.inr ⟨h, rfl, mayFail_of _ _ _ n rfl (newArray_none mem void n hn)⟩⟩
    | some x =>
      obtain ⟨h1, h2⟩ := newArray_rep mem void n x hn
      refine ⟨_, _, rfl, Or.inl ⟨?_, by rw [h.1]⟩⟩
      have := h.push x _ h1
      rw [h2] at this; exact this
  | read a i =>
    simp only [ArrRun.step, ArrSpec.step, ArrRun.on]
    rcases h.get a with ⟨h1, h2⟩ | ⟨x, l, h1, h2, h3⟩
    · rw [h1, h2]; exact ⟨_, _, rfl, Or.inl ⟨h, rfl⟩⟩
    · rw [h1, h2]
      simp only
      rw [read_spec x l i h3, index_eq i l.length ha.1 ha.2 h3.size_lt]
      by_cases hi : bufIdx i l.length < l.length
      · rw [if_pos hi, List.getElem?_eq_getElem hi]
        simp only [Option.bind_some, List.getElem?_eq_getElem hi]
        exact ⟨_, _, rfl, Or.inl ⟨by rw [set_same _ _ _ h1]; exact h, rfl⟩⟩
      · rw [if_neg hi, List.getElem?_eq_none (by omega)]
        simp only [Option.bind_none]
        exact ⟨_, _, rfl, Or.inl ⟨by rw [set_same _ _ _ h1]; exact h, rfl⟩⟩
  | write a i v =>
    simp only [ArrRun.step, ArrSpec.step]
    apply on_ok s t h
    · intro x hx; simp [write, hx]
    · intro x l _ _ hr hro
      rw [index_eq i l.length ha.1 ha.2 hr.size_lt]
      unfold write
      rw [hro, hr.1]
      simp only [Bool.false_eq_true, if_false]
      by_cases hi : bufIdx i l.length < l.length
      · obtain ⟨b, e, hb⟩ := hr.cells _ hi
        left
        rw [if_pos hi, if_pos hi, e]
        simp only [hb]
        refine ⟨_, _, rfl, ?_, rfl, trivial⟩
        have := hr.set _ hi v b e
        rw [hro, hr.1] at this; exact this
      · right; left
        rw [if_neg hi, if_neg hi]
        exact ⟨_, rfl, rfl, rfl⟩
  | cas a i old new =>
    simp only [ArrRun.step, ArrSpec.step]
    apply on_ok s t h
    · intro x hx; simp [cas, hx]
    · intro x l _ _ hr hro
      rw [index_eq i l.length ha.1 ha.2 hr.size_lt]
      unfold cas
      rw [hro, hr.1]
      simp only [Bool.false_eq_true, if_false]
      by_cases hi : bufIdx i l.length < l.length
      · obtain ⟨b, e, hb⟩ := hr.cells _ hi
        left
        rw [if_pos hi, if_pos hi, e]
        simp only [hb, List.getElem?_eq_getElem hi]
        by_cases hc : l[bufIdx i l.length] = old
        · rw [if_neg (by simpa using hc), if_pos hc]
          refine ⟨_, _, rfl, ?_, rfl, rfl⟩
          have := hr.set _ hi new b e
          rw [hro, hr.1] at this; exact this
        · rw [if_pos hc, if_neg hc]
          exact ⟨_, _, rfl, hr, hro, rfl⟩
      · right; left
        rw [if_neg hi, if_neg hi]
        exact ⟨_, rfl, rfl, rfl⟩
  | reserve a n =>
    simp only [ArrRun.step, ArrSpec.step]
    apply on_ok s t h
    · intro x hx; simp [reserve, hx]
    · intro x l _ _ hr hro
      rcases reserve_spec mem x l n hr hro with ⟨x', e, h1, _, h2⟩ | ⟨e, _, hn⟩
      · left; exact ⟨x', _, e, h1, by rw [h2, hro], rfl⟩
      · right; right; exact ⟨e, mayFail_of _ _ _ n rfl (.of mem n n hn (by omega))⟩
  | resize a n =>
    simp only [ArrRun.step, ArrSpec.step]
    apply on_ok s t h
    · intro x hx; simp [resize, hx]
    · intro x l _ _ hr hro
      rcases resize_spec mem x l void n hr hro with ⟨x', e, h1, h2, _⟩ | ⟨e, _, hn⟩
      · left; exact ⟨x', _, e, h1, h2, rfl⟩
      · right; right; exact ⟨e, mayFail_of _ _ _ n rfl hn⟩
  | slice a b e =>
    simp only [ArrRun.step, ArrSpec.step]
    rcases h.get a with ⟨h1, h2⟩ | ⟨x, l, h1, h2, h3⟩
    · rw [h1, h2]; exact ⟨_, _, rfl, Or.inl ⟨h, rfl⟩⟩
    · rw [h1, h2]
      simp only
      rcases slice_spec mem x l b e h3 with ⟨r, e1, e2, e3⟩ | ⟨e1, hn⟩
      · rw [e1]
        refine ⟨_, _, rfl, Or.inl ⟨?_, by rw [h.1]⟩⟩
        rw [set_same _ _ _ h1]
        have := h.push r _ e3
        rw [e2, slice_eq] at this; exact this
      · rw [e1]
        refine ⟨_, _, rfl, Or.inr ⟨by rw [set_same _ _ _ h1]; exact h, rfl, mayFail_of _ _ _ _ (by rw [ArrSpec.wanted, h2]; rfl) ?_⟩⟩
        rw [clamp_eq, clamp_eq] at hn
        have le := clamp_eq e l.length
        have fe := fixIndex_nonneg e l.length
        simp only [ArrSpec.slice, List.length_drop, List.length_take]
        rw [Nat.min_eq_left (by omega)]; exact hn
  | insert a b e src sb se =>
    simp only [ArrRun.step, ArrSpec.step]
    rcases h.get src with ⟨h1, h2⟩ | ⟨o, m, h1, h2, h3⟩
    · rw [h1, h2]; exact ⟨_, _, rfl, Or.inl ⟨h, rfl⟩⟩
    · rw [h1, h2]
      simp only
      apply on_ok s t h
      · intro x hx; simp [Arr.insert, hx]
      · intro x l hx hl hr hro
        by_cases hs : a = src
        · subst hs
          rw [if_pos rfl]
          have eo : l = m := by rw [hl] at h2; simp at h2; exact h2.2
          subst eo
          rcases insert_ok mem void x l b e none none sb se hr hro trivial (fun _ => ha rfl _ (by rw [hl]; rfl)) with ⟨x', e1, e2, e3⟩ | ⟨e1, hn⟩
          · left; exact ⟨x', _, e1, e2, e3, rfl⟩
          · right; right; exact ⟨e1, mayFail_of _ _ _ _ (by rw [ArrSpec.wanted, hl]; rfl) hn⟩
        · rw [if_neg hs]
          rcases insert_ok mem void x l b e (some o) (some m) sb se hr hro h3 (by simp) with ⟨x', e1, e2, e3⟩ | ⟨e1, hn⟩
          · left; exact ⟨x', _, e1, e2, e3, rfl⟩
          · right; right; exact ⟨e1, mayFail_of _ _ _ _ (by rw [ArrSpec.wanted, hl, h2]; rfl) hn⟩
  | push a v =>
    simp only [ArrRun.step, ArrSpec.step]
    apply on_ok s t h
    · intro x hx; simp [push, hx]
    · intro x l _ hl hr hro
      rcases push_spec mem x l v hr hro with ⟨x', e, h1, h2⟩ | ⟨e, _, hn⟩
      · left; exact ⟨x', _, e, h1, h2, rfl⟩
      · right; right; exact ⟨e, mayFail_of _ _ _ _ (by rw [ArrSpec.wanted, hl]; rfl) hn⟩
  | pop a =>
    simp only [ArrRun.step, ArrSpec.step]
    apply on_ok s t h
    · intro x hx; simp [pop, hx]
    · intro x l _ _ hr hro
      rcases pop_spec mem x l void hr hro with ⟨rfl, e⟩ | ⟨init, v, x', rfl, e, h1, h2⟩
      · right; left; exact ⟨_, e, rfl, rfl⟩
      · left
        refine ⟨x', v, e, ?_, h2, ?_⟩
        · simpa using h1
        · simp
  | fill a b e v =>
    simp only [ArrRun.step, ArrSpec.step]
    apply on_ok s t h
    · intro x hx; simp [fill, hx]
    · intro x l _ _ hr hro
      obtain ⟨x', e1, e2, e3⟩ := fill_spec x l b e v hr hro
      left
      refine ⟨x', _, e1, ?_, e2, rfl⟩
      have f1 := fixIndex_nonneg b l.length
      have f2 := fixIndex_nonneg e l.length
      rw [fill_eq _ _ _ _ (by omega) (by omega), clamp_eq, clamp_eq] at e3
      exact e3
  | lock a =>
    simp only [ArrRun.step, ArrSpec.step]
    rcases h.get a with ⟨h1, h2⟩ | ⟨x, l, h1, h2, h3⟩
    · rw [h1, h2]; exact ⟨_, _, rfl, Or.inl ⟨h, rfl⟩⟩
    · rw [h1, h2]
      exact ⟨_, _, rfl, Or.inl ⟨h.set a { x with ro := true } l h3, rfl⟩⟩

theorem run_ok [DecidableEq V] (void : V) (h : List (ArrOp V × (Nat → Bool))) : ∀ (s : ArrRun.Store V) (t : ArrSpec.Store V), Sim s t →
    ArrSpec.Good void t h (ArrRun.run void s h) := by
  induction h with
  | nil => intro s t _; rfl
  | cons p h ih =>
    obtain ⟨op, mem⟩ := p
    intro s t hs hal
    obtain ⟨s', o, e, hc⟩ := step_ok mem void s t op hs hal
    simp only [ArrRun.run, e]
    rcases hc with ⟨hs', rfl⟩ | ⟨hs', rfl, hf⟩
    · exact ⟨_, _, _, Or.inl rfl, rfl, ih s' _ hs'⟩
    · exact ⟨_, _, _, Or.inr ⟨rfl, rfl, hf⟩, rfl, ih s' t hs'⟩

/-- For every history of operations on any number of arrays, with any pattern of failing allocations, the code has no
undefined behaviour and the program sees what it would see with plain sequences.  Operations which fail for lack of
memory change nothing, and they fail only if an allocation was refused or the array is near the size limit.

Partial: `allowed` leaves out one case of inserting an array into itself, where the code is wrong. -/
theorem C17_arrays_partial [DecidableEq V] (void : V) (h : List (ArrOp V × (Nat → Bool))) :
    ArrSpec.Good void [] h (ArrRun.run void [] h) :=
  run_ok void h [] [] ⟨rfl, by simp⟩

/-- The full claim, for insertion: any range of any array, including the destination, replaces any range. -/
def C17_insert_full : Prop :=
  ∀ (x : A Nat) (l : List Nat) (b e sb se : Int), Rep x l → x.ro = false →
    (∃ x', insert (fun _ => true) 0 x b e none sb se = .ok () x' ∧ Rep x' (ArrSpec.splice l b e (ArrSpec.slice l sb se))) ∨
    insert (fun _ => true) 0 x b e none sb se = .raise .outOfMemory x

/-- Replacing the first two elements of `[1, 2, 3]` by its own third element reads far outside of the array: the
difference of the lengths, -1, is added as the unsigned number 4294967295 (core/kos_array.c:664-665). -/
theorem C17_insert_violated : ¬ C17_insert_full := by
  intro h
  have hr : Rep (V := Nat) ⟨3, false, some [.val 1, .val 2, .val 3, .tomb, .tomb]⟩ [1, 2, 3] :=
    ⟨rfl, 2, rfl, by decide, by decide⟩
  have e : insert (V := Nat) (fun _ => true) 0 ⟨3, false, some [.val 1, .val 2, .val 3, .tomb, .tomb]⟩ 0 2 none 2 3 = .bad := by decide +kernel
  rcases h _ _ 0 2 2 3 hr rfl with ⟨x', e1, _⟩ | e1
  · rw [e] at e1; cases e1
  · rw [e] at e1; cases e1

/-- The case in which the code is wrong cannot arise when the inserted part starts at the beginning of the source, which is
the only form offered to Kos programs (modules/kos_mod_base.c:3881-3883). -/
theorem C17_insert_from_start [DecidableEq V] (s : ArrSpec.Store V) (a : Nat) (b e : Int) (src : Nat) (se : Int) :
    ArrSpec.allowed s (.insert a b e src 0 se) := by
  intro _ p _ h1 h2 _
  have h0 : ArrSpec.clamp 0 p.2.length = 0 := by simp [ArrSpec.clamp]
  rw [h0] at *
  omega

/-- A push fails only when the allocation it needs is refused: twice the present capacity, or one more than the size. -/
theorem C17_push_memory (mem : Nat → Bool) (s : A V) (l : List V) (v : V) (h : Rep s l) (hro : s.ro = false)
    (hm : ∀ c, c = 2 * capacity s ∨ c = l.length + 1 → c < maxSize ∧ mem c = true) :
    ∃ s', push mem s v = .ok l.length s' ∧ Rep s' (l ++ [v]) := by
  rcases push_spec mem s l v h hro with ⟨s', e, h1, _⟩ | ⟨e, hc⟩
  · exact ⟨s', e, h1⟩
  · exfalso
    have hc := hc.1
    unfold push at e
    rw [hro] at e
    simp only [Bool.false_eq_true, if_false] at e
    rw [pushLoop] at e
    simp only [h.1] at e
    rw [if_pos hc] at e
    have hcap := h.capacity_ge
    unfold maxSize at hcap
    generalize hq : (if capacity s * 2 % 4294967296 > l.length + 1 then capacity s * 2 % 4294967296 else l.length + 1) = c at e
    have hcc := hm c (by subst hq; split <;> omega)
    have hcn : l.length + 1 ≤ c := by subst hq; split <;> omega
    rcases reserve_spec mem s l c h hro with ⟨s', e', hr, hg, hr'⟩ | ⟨_, _, hn⟩
    · rw [e'] at e
      simp only at e
      rw [pushLoop] at e
      simp only [hr.1] at e
      rw [if_neg (by omega)] at e
      simp only at e
      split at e
      · cases e
      · split at e <;> cases e
    · exact hn hcc

/-! Example: insertion of an array into itself, growth, negative indices, a failed allocation, a locked array. -/
example : ArrRun.run (V := Nat) 0 []
    [(.new 0, fun _ => true), (.push 0 7, fun _ => true), (.push 0 8, fun _ => true), (.insert 0 1 1 0 0 2, fun _ => true),
     (.read 0 (-1), fun _ => true), (.read 0 1, fun _ => true), (.read 0 4, fun _ => true), (.resize 0 100, fun _ => false),
     (.slice 0 (-3) 3, fun _ => true), (.read 1 1, fun _ => true), (.lock 1, fun _ => true), (.pop 1, fun _ => true), (.pop 0, fun _ => true)]
    = some [.arr 0, .idx 0, .idx 1, .unit, .val 8, .val 7, .exc .badIndex, .exc .outOfMemory, .arr 1, .val 8, .unit, .exc .readOnly, .val 8] := by
  decide +kernel

end Verif.Props
