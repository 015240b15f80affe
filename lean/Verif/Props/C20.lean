import Verif.Buf.Ops
import Verif.Props.C17

/-!
C20: buffers behave as byte sequences.

Any history of operations on any number of buffers.  Each operation comes with an oracle for allocation (`mem`) and for the
contents of fresh memory (`junk`).  The bytes added when the C function `KOS_buffer_resize` or `KOS_buffer_make_room` grows
a buffer are unspecified; the `resize` method of Kos fills them.
-/
namespace Verif.Props

open Verif.Buf

inductive BufOp
  | new (n : Nat)
  | external (bytes : List Nat)
  | lock (a : Nat)
  | reserve (a n : Nat)
  | resize (a n : Nat)
  | kosResize (a : Nat) (n v : Int)
  | makeRoom (a n : Nat)
  | fill (a : Nat) (b e : Int) (v : Nat)
  | copy (a : Nat) (d : Int) (src : Nat) (b e : Int)
  | slice (a : Nat) (b e : Int)
  | get (a : Nat) (i : Int)
  | set (a : Nat) (i v : Int)
  | dump (a : Nat)

inductive BufObs
  | unit | num (n : Nat) | buf (a : Nat) | bytes (l : List Nat) | exc (e : Err) | noBuf
  deriving DecidableEq, Repr

/-! ### Independent specification -/
namespace BufSpec

open ArrSpec (clamp index slice fill)

/-- A byte sequence; `fixed` is the size of the foreign memory the buffer wraps, if any. -/
structure S where
  bytes : List Nat
  ro    : Bool
  fixed : Option Nat

abbrev Store := List S

/-- Write `xs` over `l` from position `p`, as far as `l` reaches. -/
def overwrite (l : List Nat) (p : Nat) (xs : List Nat) : List Nat :=
  l.take p ++ xs.take (l.length - p) ++ l.drop (p + xs.length)

/-- `t` becomes `t'` by an operation on buffer `a`; `P` relates the buffer before, the observation, the buffer after. -/
def on (t : Store) (a : Nat) (o : BufObs) (t' : Store) (P : S → S → Prop) : Prop :=
  match t[a]? with
  | none => o = .noBuf ∧ t' = t
  | some x => ∃ x', P x x' ∧ t' = t.set a x'

/-- An exception; nothing changes. -/
def fails (o : BufObs) (e : Err) (x x' : S) : Prop := o = .exc e ∧ x' = x

/-- Out of memory; only if an allocation was refused. -/
def noMem (env : Env) (o : BufObs) (x x' : S) : Prop := fails o .outOfMemory x x' ∧ ∃ c, env.mem c = false

/-- Growth or shrinkage to `n` bytes; the added bytes satisfy `P`. -/
def sized (env : Env) (n : Nat) (P : List Nat → Prop) (o ok : BufObs) (x x' : S) : Prop :=
  if n ≤ x.bytes.length then o = ok ∧ x' = { x with bytes := x.bytes.take n }
  else if ∃ c ∈ x.fixed, c < n then fails o .external x x'
  else (∃ j, j.length = n - x.bytes.length ∧ P j ∧ o = ok ∧ x' = { x with bytes := x.bytes ++ j }) ∨ (x.fixed = none ∧ noMem env o x x')

/-- One operation: what may be observed, and the state afterwards. -/
def Step (env : Env) (t : Store) (op : BufOp) (o : BufObs) (t' : Store) : Prop :=
  match op with
  | .new n =>
    (∃ l, l.length = n ∧ o = .buf t.length ∧ t' = t ++ [⟨l, false, none⟩]) ∨
    (o = .exc .outOfMemory ∧ t' = t ∧ ∃ c, env.mem c = false)
  | .external bytes => o = .buf t.length ∧ t' = t ++ [⟨bytes, false, some bytes.length⟩]
  | .lock a => on t a o t' fun x x' => o = .unit ∧ x' = { x with ro := true }
  | .reserve a _ => on t a o t' fun x x' =>
      if x.ro then fails o .readOnly x x'
      else if x.fixed ≠ none then fails o .external x x'
      else (o = .unit ∧ x' = x) ∨ noMem env o x x'
  | .resize a n => on t a o t' fun x x' =>
      if x.ro then fails o .readOnly x x' else sized env n (fun _ => True) o .unit x x'
  | .kosResize a n v => on t a o t' fun x x' =>
      if n < 0 ∨ 2147483647 < n then fails o .badSize x x'
      else if v < 0 ∨ 255 < v then fails o .badByte x x'
      else if x.ro then fails o .readOnly x x'
      else sized env n.toNat (fun j => ∀ y ∈ j, y = v.toNat) o .unit x x'
  | .makeRoom a n => on t a o t' fun x x' =>
      if x.ro then fails o .readOnly x x'
      else if 4294967296 ≤ x.bytes.length + n then fails o .sizeLimit x x'
      else
        -- foreign memory of less than 1024 bytes is refused, and an empty buffer may be
        sized env (x.bytes.length + n) (fun _ => True) o (.num x.bytes.length) x x' ∨
        (x.fixed = none ∧ noMem env o x x') ∨
        (∃ c, x.fixed = some c ∧ c < 1024 ∧ fails o .external x x') ∨
        (x.bytes.length + n = 0 ∧ fails o .empty x x')
  | .fill a b e v => on t a o t' fun x x' =>
      if x.ro then fails o .readOnly x x'
      else o = .unit ∧ x' = { x with bytes := fill x.bytes b e v }
  | .copy a d src b e =>
      match t[src]? with
      | none => o = .noBuf ∧ t' = t
      | some y => on t a o t' fun x x' =>
          if x.ro then fails o .readOnly x x'
          else o = .unit ∧ x' = { x with bytes := overwrite x.bytes (clamp d x.bytes.length) (slice y.bytes b e) }
  | .slice a b e =>
      match t[a]? with
      | none => o = .noBuf ∧ t' = t
      | some x =>
        (o = .buf t.length ∧ t' = t ++ [⟨slice x.bytes b e, false, none⟩]) ∨
        (o = .exc .outOfMemory ∧ t' = t ∧ ∃ c, env.mem c = false)
  | .get a i => on t a o t' fun x x' =>
      x' = x ∧ o = match (index i x.bytes.length).bind (x.bytes[·]?) with
        | none => .exc .badIndex
        | some v => .num v
  | .set a i v => on t a o t' fun x x' =>
      if v < 0 ∨ 255 < v then fails o .badByte x x'
      else
        match index i x.bytes.length with
        | none => fails o .badIndex x x'
        | some k => if x.ro then fails o .readOnly x x' else o = .unit ∧ x' = { x with bytes := x.bytes.set k v.toNat }
  | .dump a => on t a o t' fun x x' => x' = x ∧ o = .bytes x.bytes

/-- Arguments for which the claim is made.  Sizes are 32-bit numbers, and sizes in the last 63 values of the range are left
out (see `C20_size_violated`).  Element indices are C `int`s; negative ones only for buffers below 2 GB. -/
def Legal (t : Store) : BufOp → Prop
  | .new n => n ≤ 4294967232
  | .external bytes => bytes.length < 4294967296
  | .resize a n => ∀ x ∈ t[a]?, n ≤ 4294967232 ∨ x.fixed ≠ none
  | .makeRoom a n => n < 4294967296 ∧
      ∀ x ∈ t[a]?, x.bytes.length + n ≤ 4294967232 ∨ 4294967296 ≤ x.bytes.length + n ∨ x.fixed ≠ none
  | .slice a _ _ => ∀ x ∈ t[a]?, x.bytes.length ≤ 4294967232
  | .get a i => ∀ x ∈ t[a]?, -2147483648 ≤ i ∧ i ≤ 2147483647 ∧ (i < 0 → x.bytes.length < 2147483648)
  | .set a i _ => ∀ x ∈ t[a]?, -2147483648 ≤ i ∧ i ≤ 2147483647 ∧ (i < 0 → x.bytes.length < 2147483648)
  | _ => True

/-- The observations of a run (`none`: undefined behaviour) are possible for byte sequences, up to the first operation
which is not `Legal`. -/
def Good : Store → List (BufOp × Env) → Option (List BufObs) → Prop
  | _, [], r => r = some []
  | t, (op, env) :: h, r => Legal t op → ∃ o t' r', Step env t op o t' ∧ r = r'.map (o :: ·) ∧ Good t' h r'

end BufSpec

/-! ### The code, run on a store of buffers -/
namespace BufRun

abbrev Store := List B

def on {α : Type} (s : Store) (a : Nat) (f : B → Out α) (obs : α → BufObs) : Option (Store × BufObs) :=
  match s[a]? with
  | none => some (s, .noBuf)
  | some x =>
    match f x with
    | .bad => none
    | .raise e x' => some (s.set a x', .exc e)
    | .ok r x' => some (s.set a x', obs r)

def step (env : Env) (s : Store) : BufOp → Option (Store × BufObs)
  | .new n =>
    match newBuffer env n with
    | none => some (s, .exc .outOfMemory)
    | some x => some (s ++ [x], .buf s.length)
  | .external bytes => some (s ++ [newExternal bytes], .buf s.length)
  | .lock a => on s a (fun x => .ok () { x with ro := true }) (fun _ => .unit)   -- core/kos_entity.c:511-516
  | .reserve a n => on s a (fun x => reserve env x n) (fun _ => .unit)
  | .resize a n => on s a (fun x => resize env x n) (fun _ => .unit)
  | .kosResize a n v => on s a (fun x => baseResize env x n v) (fun _ => .unit)
  | .makeRoom a n => on s a (fun x => makeRoom env x n) .num
  | .fill a b e v => on s a (fun x => fill x b e v) (fun _ => .unit)
  | .copy a d src b e =>
    match s[src]? with
    | none => some (s, .noBuf)
    | some y => on s a (fun x => copy x d (if a = src then none else some y) b e) (fun _ => .unit)
  | .slice a b e =>
    match s[a]? with
    | none => some (s, .noBuf)
    | some x =>
      match slice env x b e with
      | .bad => none
      | .raise e x' => some (s.set a x', .exc e)
      | .ok r x' => some (s.set a x' ++ [r], .buf s.length)
  | .get a i => on s a (fun x => readElem x i) .num
  | .set a i v => on s a (fun x => writeElem x i v) (fun _ => .unit)
  | .dump a =>
    match s[a]? with
    | none => some (s, .noBuf)
    | some x => (contents x).map fun l => (s, .bytes l)

def run : Store → List (BufOp × Env) → Option (List BufObs)
  | _, [] => some []
  | s, (op, env) :: h =>
    match step env s op with
    | none => none
    | some (s', o) => (run s' h).map (o :: ·)

end BufRun

/-- A buffer holds a byte sequence. -/
structure BufRep (x : B) (y : BufSpec.S) : Prop where
  rep : Rep x y.bytes
  ro : y.ro = x.ro
  fixed : y.fixed = if x.ext then some (capacity x) else none

def BufSim (s : BufRun.Store) (t : BufSpec.Store) : Prop :=
  s.length = t.length ∧ ∀ (a : Nat) (x : B), s[a]? = some x → ∃ y, t[a]? = some y ∧ BufRep x y

theorem BufSim.get {s : BufRun.Store} {t : BufSpec.Store} (h : BufSim s t) (a : Nat) :
    (s[a]? = none ∧ t[a]? = none) ∨ ∃ x y, s[a]? = some x ∧ t[a]? = some y ∧ BufRep x y := by
  cases hx : s[a]? with
  | none =>
    left; refine ⟨rfl, ?_⟩
    rw [List.getElem?_eq_none_iff] at hx ⊢
    rw [← h.1]; exact hx
  | some x =>
    right
    obtain ⟨l, h1, h2⟩ := h.2 a x hx
    exact ⟨x, l, rfl, h1, h2⟩

theorem BufSim.set {s : BufRun.Store} {t : BufSpec.Store} (h : BufSim s t) (a : Nat) (x : B) (y : BufSpec.S) (hr : BufRep x y) :
    BufSim (s.set a x) (t.set a y) := by
  refine ⟨by simpa using h.1, fun b z hb => ?_⟩
  by_cases hab : a = b
  · subst hab
    have hlt : a < s.length := by
      have := (List.getElem?_eq_some_iff.mp hb).1; simpa using this
    rw [List.getElem?_set_self hlt, Option.some.injEq] at hb
    subst hb
    exact ⟨y, List.getElem?_set_self (by rw [← h.1]; exact hlt), hr⟩
  · rw [List.getElem?_set_ne hab] at hb
    obtain ⟨m, h1, h2⟩ := h.2 b z hb
    exact ⟨m, by rw [List.getElem?_set_ne hab]; exact h1, h2⟩

theorem BufSim.push {s : BufRun.Store} {t : BufSpec.Store} (h : BufSim s t) (x : B) (y : BufSpec.S) (hr : BufRep x y) :
    BufSim (s ++ [x]) (t ++ [y]) := by
  refine ⟨by simpa using h.1, fun b z hb => ?_⟩
  by_cases hlt : b < s.length
  · rw [List.getElem?_append_left hlt] at hb
    obtain ⟨m, h1, h2⟩ := h.2 b z hb
    exact ⟨m, by rw [List.getElem?_append_left (by rw [← h.1]; exact hlt)]; exact h1, h2⟩
  · rw [List.getElem?_append_right (by omega)] at hb
    have : b - s.length = 0 := by
      have := (List.getElem?_eq_some_iff.mp hb).1; simp at this; omega
    rw [this] at hb
    simp only [List.getElem?_cons_zero, Option.some.injEq] at hb
    subst hb
    refine ⟨y, ?_, hr⟩
    rw [List.getElem?_append_right (by rw [← h.1]; omega), ← h.1, this]; rfl

def BufStepOk (env : Env) (s : BufRun.Store) (t : BufSpec.Store) (op : BufOp) : Prop :=
  ∃ s' o t', BufRun.step env s op = some (s', o) ∧ BufSim s' t' ∧ BufSpec.Step env t op o t'

/-- An operation on one buffer. -/
theorem buf_on {α : Type} (s : BufRun.Store) (t : BufSpec.Store) (h : BufSim s t) (a : Nat) (f : B → Out α) (obs : α → BufObs)
    (P : BufObs → BufSpec.S → BufSpec.S → Prop)
    (hf : ∀ x y, s[a]? = some x → t[a]? = some y → BufRep x y →
      (∃ r x' y', f x = .ok r x' ∧ BufRep x' y' ∧ P (obs r) y y') ∨
      (∃ e, f x = .raise e x ∧ P (.exc e) y y)) :
    ∃ s' o t', BufRun.on s a f obs = some (s', o) ∧ BufSim s' t' ∧ BufSpec.on t a o t' (P o) := by
  unfold BufRun.on BufSpec.on
  rcases h.get a with ⟨h1, h2⟩ | ⟨x, y, h1, h2, h3⟩
  · rw [h1, h2]
    exact ⟨s, .noBuf, t, rfl, h, rfl, rfl⟩
  · rw [h1, h2]
    rcases hf x y h1 h2 h3 with ⟨r, x', y', e1, e2, e3⟩ | ⟨e, e1, e2⟩
    · simp only [e1]
      exact ⟨_, _, t.set a y', rfl, h.set a x' y' e2, y', e3, rfl⟩
    · simp only [e1]
      exact ⟨_, _, t.set a y, rfl, h.set a x y h3, y, e2, rfl⟩

theorem bufrep_of (x x' : B) (y : BufSpec.S) (l : List Nat) (h : BufRep x y) (hr : Rep x' l) (hro : x'.ro = x.ro) (hx : x'.ext = x.ext)
    (hc : x.ext = true → capacity x' = capacity x) : BufRep x' { y with bytes := l } := by
  refine ⟨hr, by rw [hro]; exact h.ro, ?_⟩
  rw [hx]
  have := h.fixed
  cases he : x.ext with
  | false => rw [he] at this; exact this
  | true => rw [he] at this; rw [hc he]; exact this

theorem sized_of (env : Env) (x x' : B) (y : BufSpec.S) (n : Nat) (j : List Nat) (P : List Nat → Prop) (ok : BufObs) (h : BufRep x y)
    (hr : Rep x' ((y.bytes ++ j).take n)) (hj : n ≤ y.bytes.length + j.length) (hP : P (j.take (n - y.bytes.length)))
    (hro : x'.ro = x.ro) (hx : x'.ext = x.ext) (hc : x.ext = true → capacity x' = capacity x ∧ n ≤ capacity x) :
    ∃ y', BufRep x' y' ∧ BufSpec.sized env n P ok ok y y' := by
  refine ⟨{ y with bytes := (y.bytes ++ j).take n }, bufrep_of x x' y _ h hr hro hx (fun he => (hc he).1), ?_⟩
  unfold BufSpec.sized
  by_cases hn : n ≤ y.bytes.length
  · rw [if_pos hn, List.take_append_of_le_length hn]
    exact ⟨rfl, rfl⟩
  · rw [if_neg hn]
    rw [if_neg]
    · left
      refine ⟨j.take (n - y.bytes.length), by rw [List.length_take]; omega, hP, rfl, ?_⟩
      rw [List.take_append, List.take_of_length_le (by omega)]
    · rintro ⟨c, hc1, hc2⟩
      rw [h.fixed] at hc1
      cases he : x.ext with
      | false => rw [he] at hc1; simp at hc1
      | true =>
        rw [he] at hc1
        have := (hc he).2
        simp at hc1
        omega

theorem fixed_none {x : B} {y : BufSpec.S} (h : BufRep x y) (he : x.ext = false) : y.fixed = none := by
  rw [h.fixed, he]; rfl

theorem fixed_some {x : B} {y : BufSpec.S} (h : BufRep x y) (he : x.ext = true) : y.fixed = some (capacity x) := by
  rw [h.fixed, he]; rfl

theorem fixed_ne {x : B} {y : BufSpec.S} (h : BufRep x y) (hn : y.fixed ≠ none) : x.ext = true := by
  cases he : x.ext with
  | true => rfl
  | false => exact absurd (fixed_none h he) hn

theorem elemIdx_spec (i : Int) (n : Nat) (h1 : -2147483648 ≤ i) (h2 : i ≤ 2147483647) (h3 : i < 0 → n < 2147483648) (hn : n < 4294967296) :
    ∃ k, elemIdx i n = some k ∧ ArrSpec.index i n = if k < n then some k else none := by
  unfold elemIdx ArrSpec.index
  simp only
  by_cases hi : i < 0
  · have := h3 hi
    rw [if_pos hi, if_pos this, if_neg (by omega)]
    refine ⟨_, rfl, ?_⟩
    rw [if_neg (by omega)]
    by_cases hs : 0 ≤ i + n
    · rw [if_pos (by omega), if_pos (by omega)]
      congr 1; omega
    · rw [if_neg (by omega), if_neg (by omega)]
  · rw [if_neg hi, if_neg (by omega)]
    refine ⟨_, rfl, ?_⟩
    by_cases hs : i < n
    · rw [if_pos (by omega), if_pos (by omega)]
      congr 1; omega
    · rw [if_neg (by omega), if_neg (by omega), if_neg (by omega)]

theorem set_eq (l : List Nat) (k : Nat) (v : Nat) (hk : k < l.length) : l.take k ++ [v] ++ l.drop (k + 1) = l.set k v := by
  rw [List.set_eq_take_append_cons_drop, if_pos hk]; simp

theorem buf_step_ok (env : Env) (s : BufRun.Store) (t : BufSpec.Store) (h : BufSim s t) (op : BufOp) (hl : BufSpec.Legal t op) :
    BufStepOk env s t op := by
  unfold BufStepOk
  cases op with
  | new n =>
    rcases newBuffer_spec env n hl with ⟨x, l, e1, e2, e3, e4, e5⟩ | ⟨e1, hm⟩
    · simp only [BufRun.step, e1]
      refine ⟨_, _, t ++ [⟨l, false, none⟩], rfl, h.push x _ ⟨e2, e4.symm, by rw [e5]; rfl⟩, Or.inl ⟨l, e3, by rw [h.1], rfl⟩⟩
    · simp only [BufRun.step, e1]
      exact ⟨_, _, t, rfl, h, Or.inr ⟨rfl, rfl, hm⟩⟩
  | external bytes =>
    refine ⟨_, _, t ++ [⟨bytes, false, some bytes.length⟩], rfl, h.push _ _ ⟨⟨rfl, Or.inr ⟨[], ?_⟩, ?_, ?_⟩, rfl, ?_⟩, ?_⟩
    · simp [newExternal]
    · exact hl
    · intro hx; cases hx
    · rfl
    · exact ⟨by rw [h.1], rfl⟩
  | lock a =>
    refine buf_on s t h a (fun x => .ok () { x with ro := true }) (fun _ => .unit)
      (fun o x x' => o = .unit ∧ x' = { x with ro := true }) fun x y _ _ hr =>
        Or.inl ⟨(), { x with ro := true }, { y with ro := true }, rfl, ⟨?_, ?_, ?_⟩, rfl, rfl⟩
    · exact ⟨hr.rep.size, hr.rep.data, hr.rep.cap32, hr.rep.cap⟩
    · rfl
    · exact hr.fixed
  | reserve a n =>
    refine buf_on s t h a (fun x => reserve env x n) _ (fun o x x' =>
      if x.ro then BufSpec.fails o .readOnly x x'
      else if x.fixed ≠ none then BufSpec.fails o .external x x'
      else (o = .unit ∧ x' = x) ∨ BufSpec.noMem env o x x') fun x y _ _ hr => ?_
    rw [hr.ro]
    cases hro : x.ro with
    | true => exact Or.inr ⟨.readOnly, by unfold reserve; simp [hro], by simp [BufSpec.fails]⟩
    | false =>
      cases hx : x.ext with
      | true =>
        refine Or.inr ⟨_, reserve_ext env x n hro hx, ?_⟩
        rw [if_neg (by simp), if_pos (by rw [fixed_some hr hx]; simp)]
        exact ⟨rfl, rfl⟩
      | false =>
        rw [fixed_none hr hx]
        rcases reserve_spec env x y.bytes n hr.rep hro hx with ⟨x', e, h1, h2, h3, _, _⟩ | ⟨e, hm⟩
        · refine Or.inl ⟨(), x', y, e, ⟨h1, by rw [hr.ro, hro, h2], ?_⟩, ?_⟩
          · rw [h3]; exact fixed_none hr hx
          · exact Or.inl ⟨rfl, rfl⟩
        · exact Or.inr ⟨_, e, Or.inr ⟨⟨rfl, rfl⟩, hm⟩⟩
  | resize a n =>
    refine buf_on s t h a (fun x => resize env x n) _ (fun o x x' =>
      if x.ro then BufSpec.fails o .readOnly x x' else BufSpec.sized env n (fun _ => True) o .unit x x') fun x y _ hy hr => ?_
    rw [hr.ro]
    cases hro : x.ro with
    | true => exact Or.inr ⟨_, resize_ro env x n hro, by simp [BufSpec.fails]⟩
    | false =>
      have hl' : n ≤ 4294967232 ∨ x.ext = true := by
        rcases hl y hy with h1 | h1
        · exact Or.inl h1
        · exact Or.inr (fixed_ne hr h1)
      rcases resize_spec env x y.bytes n hr.rep hro hl' with ⟨x', j, e, hj, h1, h2, h3, h4⟩ | ⟨e, h1, h2, hm⟩ | ⟨e, h1, h2⟩
      · obtain ⟨y', g1, g2⟩ := sized_of env x x' y n j (fun _ => True) .unit hr h1 hj trivial (by rw [h2, hro]) h3 h4
        exact Or.inl ⟨(), x', y', e, g1, g2⟩
      · refine Or.inr ⟨_, e, ?_⟩
        show BufSpec.sized env n _ _ _ y y
        unfold BufSpec.sized
        rw [if_neg (by omega), if_neg (by rw [fixed_none hr h2]; simp)]
        exact Or.inr ⟨fixed_none hr h2, ⟨rfl, rfl⟩, hm⟩
      · refine Or.inr ⟨_, e, ?_⟩
        show BufSpec.sized env n _ _ _ y y
        unfold BufSpec.sized
        have := hr.rep.len_cap
        rw [if_neg (by omega), if_pos ⟨capacity x, by rw [fixed_some hr h1]; rfl, h2⟩]
        exact ⟨rfl, rfl⟩
  | kosResize a n v =>
    refine buf_on s t h a (fun x => baseResize env x n v) _ (fun o x x' =>
      if n < 0 ∨ 2147483647 < n then BufSpec.fails o .badSize x x'
      else if v < 0 ∨ 255 < v then BufSpec.fails o .badByte x x'
      else if x.ro then BufSpec.fails o .readOnly x x'
      else BufSpec.sized env n.toNat (fun j => ∀ y ∈ j, y = v.toNat) o .unit x x') fun x y _ hy hr => ?_
    by_cases hn : n < 0 ∨ 2147483647 < n
    · exact Or.inr ⟨.badSize, by unfold baseResize; exact if_pos hn, by rw [if_pos hn]; exact ⟨rfl, rfl⟩⟩
    by_cases hv : v < 0 ∨ 255 < v
    · exact Or.inr ⟨.badByte, by unfold baseResize; exact (if_neg hn).trans (if_pos hv), by rw [if_neg hn, if_pos hv]; exact ⟨rfl, rfl⟩⟩
    simp only [if_neg hn, if_neg hv]
    rw [hr.ro]
    cases hro : x.ro with
    | true =>
      refine Or.inr ⟨.readOnly, ?_, by simp [BufSpec.fails]⟩
      unfold baseResize
      refine (if_neg hn).trans ((if_neg hv).trans ?_)
      rw [resize_ro env x _ hro]
    | false =>
      rcases baseResize_spec env x y.bytes n v hr.rep hro (by omega) (by omega) (by omega) (by omega) with
        ⟨x', e, h1, h2, h3, h4⟩ | ⟨e, h1, h2, hm⟩ | ⟨e, h1, h2⟩
      · have hq : y.bytes.take n.toNat ++ List.replicate (n.toNat - y.bytes.length) v.toNat =
            (y.bytes ++ List.replicate (n.toNat - y.bytes.length) v.toNat).take n.toNat := by
          rw [List.take_append, List.take_replicate, Nat.min_self]
        rw [hq] at h1
        obtain ⟨y', g1, g2⟩ := sized_of env x x' y n.toNat _ (fun j => ∀ y ∈ j, y = v.toNat) .unit hr h1
          (by rw [List.length_replicate]; omega)
          (by intro z hz; exact (List.mem_replicate.mp (List.mem_of_mem_take hz)).2) (by rw [h2, hro]) h3 h4
        exact Or.inl ⟨(), x', y', e, g1, g2⟩
      · refine Or.inr ⟨_, e, ?_⟩
        show BufSpec.sized env n.toNat _ _ _ y y
        unfold BufSpec.sized
        rw [if_neg (by omega), if_neg (by rw [fixed_none hr h2]; simp)]
        exact Or.inr ⟨fixed_none hr h2, ⟨rfl, rfl⟩, hm⟩
      · refine Or.inr ⟨_, e, ?_⟩
        show BufSpec.sized env n.toNat _ _ _ y y
        unfold BufSpec.sized
        have := hr.rep.len_cap
        rw [if_neg (by omega), if_pos ⟨capacity x, by rw [fixed_some hr h1]; rfl, h2⟩]
        exact ⟨rfl, rfl⟩
  | makeRoom a n =>
    refine buf_on s t h a (fun x => makeRoom env x n) _ (fun o x x' =>
      if x.ro then BufSpec.fails o .readOnly x x'
      else if 4294967296 ≤ x.bytes.length + n then BufSpec.fails o .sizeLimit x x'
      else
        BufSpec.sized env (x.bytes.length + n) (fun _ => True) o (.num x.bytes.length) x x' ∨
        (x.fixed = none ∧ BufSpec.noMem env o x x') ∨
        (∃ c, x.fixed = some c ∧ c < 1024 ∧ BufSpec.fails o .external x x') ∨
        (x.bytes.length + n = 0 ∧ BufSpec.fails o .empty x x')) fun x y _ hy hr => ?_
    rw [hr.ro]
    cases hro : x.ro with
    | true => exact Or.inr ⟨.readOnly, by unfold makeRoom; simp [hro], by simp [BufSpec.fails]⟩
    | false =>
      have hl' : y.bytes.length + n ≤ 4294967232 ∨ 4294967296 ≤ y.bytes.length + n ∨ x.ext = true := by
        rcases hl.2 y hy with h1 | h1 | h1
        · exact Or.inl h1
        · exact Or.inr (Or.inl h1)
        · exact Or.inr (Or.inr (fixed_ne hr h1))
      simp only [Bool.false_eq_true, if_false]
      rcases makeRoom_spec env x y.bytes n hr.rep hro hl.1 hl' with ⟨x', j, e, hj, h1, h2, h3, h4, h5⟩ | ⟨e, h1⟩ | ⟨e, h1, h2, hm⟩ |
        ⟨e, h1, h2, h3⟩ | ⟨e, h1, h2, h3⟩
      · have h1' : Rep x' ((y.bytes ++ j).take (y.bytes.length + n)) := by
          rw [List.take_of_length_le (by rw [List.length_append]; omega)]; exact h1
        obtain ⟨y', g1, g2⟩ := sized_of env x x' y (y.bytes.length + n) j (fun _ => True) (.num y.bytes.length) hr h1' (by omega) trivial
          (by rw [h2, hro]) h3 h5
        refine Or.inl ⟨_, x', y', e, g1, ?_⟩
        rw [if_neg (by omega)]
        exact Or.inl g2
      · exact Or.inr ⟨_, e, by rw [if_pos h1]; exact ⟨rfl, rfl⟩⟩
      · refine Or.inr ⟨_, e, ?_⟩
        rw [if_neg (by omega)]
        exact Or.inr (Or.inl ⟨fixed_none hr h2, ⟨rfl, rfl⟩, hm⟩)
      · refine Or.inr ⟨_, e, ?_⟩
        rw [if_neg (by omega)]
        by_cases hc : 1024 > capacity x
        · exact Or.inr (Or.inr (Or.inl ⟨_, fixed_some hr h2, hc, rfl, rfl⟩))
        · left
          unfold BufSpec.sized
          have := hr.rep.len_cap
          have hgt : y.bytes.length + n > capacity x := by omega
          rw [if_neg (by omega), if_pos ⟨capacity x, by rw [fixed_some hr h2]; rfl, hgt⟩]
          exact ⟨rfl, rfl⟩
      · refine Or.inr ⟨_, e, ?_⟩
        rw [if_neg (by rw [h1, h2]; simp)]
        exact Or.inr (Or.inr (Or.inr ⟨by rw [h1, h2]; rfl, rfl, rfl⟩))
  | fill a b e v =>
    refine buf_on s t h a (fun x => fill x b e v) _ (fun o x x' =>
      if x.ro then BufSpec.fails o .readOnly x x'
      else o = .unit ∧ x' = { x with bytes := ArrSpec.fill x.bytes b e v }) fun x y _ hy hr => ?_
    rw [hr.ro]
    cases hro : x.ro with
    | true => exact Or.inr ⟨.readOnly, by unfold fill; simp [hro], by simp [BufSpec.fails]⟩
    | false =>
      obtain ⟨x', e1, h1, h2, h3, h4⟩ := fill_spec x y.bytes b e v hr.rep hro
      refine Or.inl ⟨(), x', _, e1, bufrep_of x x' y _ hr h1 (by rw [h2, hro]) h3 (fun _ => h4), rfl, ?_⟩
      rw [ArrSpec.fill, ← clamp_eq, ← clamp_eq]
      rw [BufSpec.S.mk.injEq]
      refine ⟨fill_eq _ _ _ _ ?_ ?_, by rw [hr.ro, hro], rfl⟩
      · have := Verif.Arr.fixIndex_nonneg b y.bytes.length; omega
      · have := Verif.Arr.fixIndex_nonneg e y.bytes.length; omega
  | copy a d src b e =>
    simp only [BufRun.step, BufSpec.Step]
    rcases h.get src with ⟨h1, h2⟩ | ⟨z, w, h1, h2, h3⟩
    · rw [h1, h2]
      exact ⟨_, _, t, rfl, h, rfl, rfl⟩
    · rw [h1, h2]
      refine buf_on s t h a (fun x => copy x d (if a = src then none else some z) b e) _ (fun o x x' =>
        if x.ro then BufSpec.fails o .readOnly x x'
        else o = .unit ∧ x' = { x with bytes := BufSpec.overwrite x.bytes (ArrSpec.clamp d x.bytes.length) (ArrSpec.slice w.bytes b e) })
        fun x y hx hy hr => ?_
      rw [hr.ro]
      cases hro : x.ro with
      | true => exact Or.inr ⟨.readOnly, by unfold copy; simp [hro], by simp [BufSpec.fails]⟩
      | false =>
        have hsrc : Rep ((if a = src then none else some z).getD x) w.bytes := by
          by_cases has : a = src
          · subst has
            rw [if_pos rfl]
            rw [hx, Option.some.injEq] at h1
            subst h1
            exact h3.rep
          · rw [if_neg has]; exact h3.rep
        obtain ⟨x', e1, g1, g2, g3, g4⟩ := copy_spec x y.bytes d (if a = src then none else some z) w.bytes b e hr.rep hro hsrc
        refine Or.inl ⟨(), x', _, e1, bufrep_of x x' y _ hr g1 (by rw [g2, hro]) g3 (fun _ => g4), rfl, ?_⟩
        have hb := Verif.Arr.fixIndex_nonneg b w.bytes.length
        have he := Verif.Arr.fixIndex_nonneg e w.bytes.length
        rw [BufSpec.overwrite, ← clamp_eq, ← slice_eq]
        rw [BufSpec.S.mk.injEq]
        refine ⟨?_, by rw [hr.ro, hro], rfl⟩
        congr 2
        rw [List.length_take, List.length_drop]; omega
  | slice a b e =>
    simp only [BufRun.step, BufSpec.Step]
    rcases h.get a with ⟨h1, h2⟩ | ⟨x, y, h1, h2, h3⟩
    · rw [h1, h2]
      exact ⟨_, _, t, rfl, h, rfl, rfl⟩
    · rw [h1, h2]
      rcases slice_spec env x y.bytes b e h3.rep (Or.inl (hl y h2)) with ⟨r, e1, g1, g2, g3⟩ | ⟨e1, hm⟩
      · simp only [e1]
        rw [slice_eq] at g3
        refine ⟨_, _, t ++ [⟨ArrSpec.slice y.bytes b e, false, none⟩], rfl, ?_, Or.inl ⟨by rw [h.1], rfl⟩⟩
        rw [set_same _ _ _ h1]
        exact h.push r _ ⟨g3, g1.symm, by rw [g2]; rfl⟩
      · simp only [e1]
        refine ⟨_, _, t, rfl, ?_, Or.inr ⟨rfl, rfl, hm⟩⟩
        rw [set_same _ _ _ h1]; exact h
  | get a i =>
    refine buf_on s t h a (fun x => readElem x i) _ (fun o x x' =>
      x' = x ∧ o = match (ArrSpec.index i x.bytes.length).bind (x.bytes[·]?) with
        | none => .exc .badIndex
        | some v => .num v) fun x y _ hy hr => ?_
    obtain ⟨l1, l2, l3⟩ := hl y hy
    have hc := hr.rep.len_cap
    have h32 := hr.rep.cap32
    obtain ⟨k, e1, e2⟩ := elemIdx_spec i y.bytes.length l1 l2 l3 (by omega)
    rw [e2]
    unfold readElem
    rw [hr.rep.size, e1]
    simp only
    by_cases hk : k < y.bytes.length
    · rw [if_neg (by omega), if_pos hk]
      left
      rcases hr.rep.data with ⟨_, hd⟩ | ⟨rest, hd⟩
      · rw [hd] at hk; simp at hk
      · rw [hd]
        simp only
        rw [List.getElem?_append_left hk, List.getElem?_eq_getElem hk]
        refine ⟨_, x, y, rfl, hr, rfl, ?_⟩
        simp [List.getElem?_eq_getElem hk]
    · rw [if_pos (by omega), if_neg hk]
      exact Or.inr ⟨.badIndex, rfl, trivial, rfl⟩
  | set a i v =>
    refine buf_on s t h a (fun x => writeElem x i v) _ (fun o x x' =>
      if v < 0 ∨ 255 < v then BufSpec.fails o .badByte x x'
      else
        match ArrSpec.index i x.bytes.length with
        | none => BufSpec.fails o .badIndex x x'
        | some k => if x.ro then BufSpec.fails o .readOnly x x' else o = .unit ∧ x' = { x with bytes := x.bytes.set k v.toNat })
      fun x y _ hy hr => ?_
    obtain ⟨l1, l2, l3⟩ := hl y hy
    have hc := hr.rep.len_cap
    have h32 := hr.rep.cap32
    by_cases hv : v < 0 ∨ 255 < v
    · exact Or.inr ⟨.badByte, by unfold writeElem; exact if_pos hv, by rw [if_pos hv]; exact ⟨rfl, rfl⟩⟩
    obtain ⟨k, e1, e2⟩ := elemIdx_spec i y.bytes.length l1 l2 l3 (by omega)
    simp only [if_neg hv]
    rw [e2]
    unfold writeElem
    rw [if_neg (show ¬ (v < 0 ∨ v > 255) from hv), hr.rep.size, e1]
    simp only
    by_cases hk : k < y.bytes.length
    · rw [if_neg (by omega), if_pos hk, hr.ro]
      simp only
      cases hro : x.ro with
      | true =>
        refine Or.inr ⟨.readOnly, ?_, by simp [BufSpec.fails]⟩
        unfold dataVolatile; simp [hro]
      | false =>
        left
        obtain ⟨d, d', g1, g2, g3, g4⟩ := hr.rep.put k [v.toNat] (by simp; omega) (by simp)
        rw [dataVolatile_ok x d hro g1]
        simp only [g1, g2]
        refine ⟨(), _, _, rfl, bufrep_of x _ y (y.bytes.set k v.toNat) hr ?_ rfl rfl ?_, ?_⟩
        · rw [List.length_singleton, set_eq _ _ _ hk] at g3
          exact g3
        · intro _
          unfold capacity; simp only [g1]; exact g4
        · have hy : y.ro = false := by rw [hr.ro, hro]
          simp [hy]
    · rw [if_pos (by omega), if_neg hk]
      exact Or.inr ⟨.badIndex, rfl, rfl, rfl⟩
  | dump a =>
    simp only [BufRun.step, BufSpec.Step, BufSpec.on]
    rcases h.get a with ⟨h1, h2⟩ | ⟨x, y, h1, h2, h3⟩
    · rw [h1, h2]
      exact ⟨_, _, t, rfl, h, rfl, rfl⟩
    · rw [h1, h2]
      simp only [contents_spec x y.bytes h3.rep, Option.map_some]
      exact ⟨_, _, t, rfl, h, y, ⟨rfl, rfl⟩, (set_same _ _ _ h2).symm⟩

theorem buf_run_ok (h : List (BufOp × Env)) : ∀ (s : BufRun.Store) (t : BufSpec.Store), BufSim s t →
    BufSpec.Good t h (BufRun.run s h) := by
  induction h with
  | nil => intro s t _; rfl
  | cons p h ih =>
    obtain ⟨op, env⟩ := p
    intro s t hs hl
    obtain ⟨s', o, t', e, h1, h2⟩ := buf_step_ok env s t hs op hl
    refine ⟨o, t', BufRun.run s' h, h2, ?_, ih s' t' h1⟩
    simp only [BufRun.run, e]

/-- Every history of operations on buffers behaves as on byte sequences, with no access out of bounds, as long as
all its operations have legal arguments.

Partial: `Legal` leaves out sizes above 4294967232, where the claim is false. -/
theorem C20_buffers_partial (h : List (BufOp × Env)) : BufSpec.Good [] h (BufRun.run [] h) :=
  buf_run_ok h [] [] ⟨rfl, by simp⟩

/-- Arguments have the types of the C functions. -/
def BufOp.typed : BufOp → Prop
  | .new n => n < 4294967296
  | .external bytes => bytes.length < 4294967296
  | .resize _ n => n < 4294967296
  | .makeRoom _ n => n < 4294967296
  | .get _ i => -2147483648 ≤ i ∧ i ≤ 2147483647
  | .set _ i _ => -2147483648 ≤ i ∧ i ≤ 2147483647
  | _ => True

/-- The full claim includes that no history has undefined behaviour. -/
def C20_safe_full : Prop := ∀ h : List (BufOp × Env), (∀ p ∈ h, p.1.typed) → BufRun.run [] h ≠ none

/-- The code violates it: asking for 4294967290 bytes more in a buffer of one byte succeeds without allocating anything, because
rounding the size up to a multiple of 64 wraps to 0 (core/kos_buffer.c:174).  Using the room is out of bounds. -/
theorem C20_size_violated : ¬ C20_safe_full := by
  intro h
  let env : Env := ⟨fun _ => true, fun _ => 0⟩
  refine h [(.new 1, env), (.makeRoom 0 4294967290, env), (.set 0 64 1, env)] ?_ ?_
  · intro p hp
    simp only [List.mem_cons, List.not_mem_nil, or_false] at hp
    rcases hp with rfl | rfl | rfl <;> simp [BufOp.typed]
  · decide +kernel

/-- The same for `KOS_buffer_resize` and `KOS_new_buffer`: any size above 4294967232 is accepted with no storage at all. -/
theorem C20_resize_violated (env : Env) (n : Nat) (h1 : 4294967232 < n) (h2 : n < 4294967296) :
    newBuffer env n = some ⟨n, false, false, none⟩ ∧
    resize env ⟨0, false, false, none⟩ n = .ok () ⟨n, false, false, none⟩ := by
  have ha := alignUp_wrap n h1 h2
  refine ⟨by unfold newBuffer; simp [ha], ?_⟩
  unfold resize
  have : reserve env ⟨0, false, false, none⟩ n = .ok () ⟨0, false, false, none⟩ := by
    unfold reserve; simp [ha, capacity]
  refine (if_neg (by simp)).trans ((if_pos ⟨show n > 0 by omega, show n > 0 by omega⟩).trans ?_)
  have hc : capacity ⟨0, false, false, none⟩ * 2 % 4294967296 = 0 := rfl
  simp only [hc]
  rw [if_pos (show n > 0 by omega), this]

/-- Overlapping copy, growth over the end of the storage and a foreign buffer. -/
example :
    let env : Env := ⟨fun _ => true, fun i => i⟩
    BufRun.run [] [(.new 3, env), (.copy 0 1 0 0 2, env), (.dump 0, env), (.kosResize 0 70 9, env), (.get 0 (-1), env),
      (.external [7, 8], env), (.copy 0 (-1) 1 (-1) 9, env), (.get 0 69, env), (.resize 1 3, env), (.slice 0 1 4, env), (.dump 2, env)]
    = some [.buf 0, .unit, .bytes [0, 0, 1], .unit, .num 9, .buf 1, .unit, .num 8, .exc .external, .buf 2, .bytes [0, 1, 9]] := by
  decide +kernel

end Verif.Props
