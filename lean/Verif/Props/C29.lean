import Verif.Str.Ops
import Verif.Props.C17

/-!
C29: strings behave as character sequences.

Any history of operations on any number of strings; the representation (8, 16 or 32 bits per character, inside the string
object or shared with another string) does not matter.  Each operation comes with an oracle for the memory it allocates.
-/
namespace Verif.Props

open Verif.Str

inductive StrOp
  | codes (l : List Int)        -- string constructor, from an array of code points
  | slice (a : Nat) (b e : Int)
  | add (l : List Nat)          -- concatenation of any number of strings
  | repeats (a : Nat) (n : Int)
  | reverse (a : Nat)
  | char (a : Nat) (i : Int)    -- the element as a string
  | code (a : Nat) (i : Int)    -- its code point
  | hash (a : Nat)
  | size (a : Nat)

inductive StrObs
  | str (a : Nat) | num (n : Nat) | exc (e : Err) | noStr
  deriving DecidableEq, Repr

/-! ### Independent specification -/
namespace StrSpec

/-- The characters of each string. -/
abbrev Store := List (List Nat)

/-- A new string, unless memory was refused. -/
def makes (env : Env) (t : Store) (cs : List Nat) (o : StrObs) (t' : Store) : Prop :=
  (o = .str t.length ∧ t' = t ++ [cs]) ∨ (o = .exc .outOfMemory ∧ t' = t ∧ env.mem = false)

def fails (t : Store) (e : Err) (o : StrObs) (t' : Store) : Prop := o = .exc e ∧ t' = t

/-- All the strings with these numbers. -/
def lookup (t : Store) : List Nat → Option (List (List Nat))
  | [] => some []
  | a :: l => t[a]?.bind fun cs => (lookup t l).map (cs :: ·)

/-- The djb2a hash, modulo 2^32. -/
def djb2a (cs : List Nat) : Nat := cs.foldl (fun h c => (h * 33 % 4294967296) ^^^ c) 5381

def on (t : Store) (a : Nat) (o : StrObs) (t' : Store) (P : List Nat → Prop) : Prop :=
  match t[a]? with
  | none => o = .noStr ∧ t' = t
  | some cs => P cs

def Step (env : Env) (t : Store) (op : StrOp) (o : StrObs) (t' : Store) : Prop :=
  match op with
  | .codes l =>
    if 65535 < l.length then fails t .tooLarge o t'
    else if ∃ c ∈ l, c < 0 ∨ 0x1FFFFF < c then fails t .badCode o t'
    else makes env t (l.map Int.toNat) o t'
  | .slice a b e => on t a o t' fun cs => makes env t (ArrSpec.slice cs b e) o t'
  | .add l =>
    match lookup t l with
    | none => o = .noStr ∧ t' = t
    | some parts => if 65535 < parts.flatten.length then fails t .tooLong o t' else makes env t parts.flatten o t'
  | .repeats a n => on t a o t' fun cs =>
      if n < 0 ∨ 65535 < n ∨ 65535 < n * cs.length then fails t .tooManyRepeats o t'
      else makes env t (List.replicate n.toNat cs).flatten o t'
  | .reverse a => on t a o t' fun cs => makes env t cs.reverse o t'
  | .char a i => on t a o t' fun cs =>
      match (ArrSpec.index i cs.length).bind (cs[·]?) with
      | none => fails t .badIndex o t'
      | some c => makes env t [c] o t'
  | .code a i => on t a o t' fun cs =>
      match (ArrSpec.index i cs.length).bind (cs[·]?) with
      | none => fails t .badIndex o t'
      | some c => o = .num c ∧ t' = t
  | .hash a => on t a o t' fun cs => o = .num (djb2a cs) ∧ t' = t
  | .size a => on t a o t' fun cs => o = .num cs.length ∧ t' = t

/-- Arguments for which the claim is made: the total length of a concatenation is below 2^32 (see `C29_add_violated`). -/
def Legal (t : Store) : StrOp → Prop
  | .add l => ∀ parts ∈ lookup t l, parts.flatten.length < 4294967296
  | _ => True

/-- The observations of a run (`none`: undefined behaviour) are possible for character sequences, up to the first operation
which is not `Legal`. -/
def Good : Store → List (StrOp × Env) → Option (List StrObs) → Prop
  | _, [], r => r = some []
  | t, (op, env) :: h, r => Legal t op → ∃ o t' r', Step env t op o t' ∧ r = r'.map (o :: ·) ∧ Good t' h r'

end StrSpec

/-! ### The code, run on a store of strings -/
namespace StrRun

abbrev Store := List S

def push (s : Store) : Out S → Option (Store × StrObs)
  | .bad => none
  | .raise e => some (s, .exc e)
  | .ok r => some (s ++ [r], .str s.length)

def on (s : Store) (a : Nat) (f : S → Option (Store × StrObs)) : Option (Store × StrObs) :=
  match s[a]? with
  | none => some (s, .noStr)
  | some x => f x

def lookup (s : Store) : List Nat → Option (List S)
  | [] => some []
  | a :: l => s[a]?.bind fun x => (lookup s l).map (x :: ·)

def step (env : Env) (s : Store) : StrOp → Option (Store × StrObs)
  | .codes l => push s (fromCodes env l)
  | .slice a b e => on s a fun x => push s (Str.slice env x b e)
  | .add l =>
    match lookup s l with
    | none => some (s, .noStr)
    | some xs => push s (addN env xs)
  | .repeats a n => on s a fun x => push s (Str.repeats env x n)
  | .reverse a => on s a fun x => push s (Str.reverse env x)
  | .char a i => on s a fun x => push s (getChar env x i)
  | .code a i => on s a fun x =>
      match getCharCode x i with
      | .bad => none
      | .raise e => some (s, .exc e)
      | .ok c => some (s, .num c)
  | .hash a => on s a fun x =>
      match getHash false x with
      | .bad => none
      | .raise e => some (s, .exc e)
      | .ok (h, x') => some (s.set a x', .num h)
  | .size a => on s a fun x => some (s, .num x.len)

def run : Store → List (StrOp × Env) → Option (List StrObs)
  | _, [] => some []
  | s, (op, env) :: h =>
    match step env s op with
    | none => none
    | some (s', o) => (run s' h).map (o :: ·)

end StrRun

/-- Every string holds its characters. -/
def StrSim (s : StrRun.Store) (t : StrSpec.Store) : Prop :=
  s.length = t.length ∧ ∀ (a : Nat) (x : S), s[a]? = some x → ∃ cs, t[a]? = some cs ∧ Rep x cs

theorem StrSim.get {s : StrRun.Store} {t : StrSpec.Store} (h : StrSim s t) (a : Nat) :
    (s[a]? = none ∧ t[a]? = none) ∨ ∃ x cs, s[a]? = some x ∧ t[a]? = some cs ∧ Rep x cs := by
  cases hx : s[a]? with
  | none =>
    left; refine ⟨rfl, ?_⟩
    rw [List.getElem?_eq_none_iff] at hx ⊢
    rw [← h.1]; exact hx
  | some x =>
    right
    obtain ⟨l, h1, h2⟩ := h.2 a x hx
    exact ⟨x, l, rfl, h1, h2⟩

theorem StrSim.set {s : StrRun.Store} {t : StrSpec.Store} (h : StrSim s t) (a : Nat) (x : S) (cs : List Nat) (ht : t[a]? = some cs)
    (hr : Rep x cs) : StrSim (s.set a x) t := by
  refine ⟨by simpa using h.1, fun b z hb => ?_⟩
  by_cases hab : a = b
  · subst hab
    have hlt : a < s.length := by
      have := (List.getElem?_eq_some_iff.mp hb).1; simpa using this
    rw [List.getElem?_set_self hlt, Option.some.injEq] at hb
    subst hb
    exact ⟨cs, ht, hr⟩
  · rw [List.getElem?_set_ne hab] at hb
    exact h.2 b z hb

theorem StrSim.push {s : StrRun.Store} {t : StrSpec.Store} (h : StrSim s t) (x : S) (cs : List Nat) (hr : Rep x cs) :
    StrSim (s ++ [x]) (t ++ [cs]) := by
  refine ⟨by simpa using h.1, fun b z hb => ?_⟩
  by_cases hlt : b < s.length
  · rw [List.getElem?_append_left hlt] at hb
    obtain ⟨m, h1, h2⟩ := h.2 b z hb
    exact ⟨m, by rw [List.getElem?_append_left (by rw [← h.1]; exact hlt)]; exact h1, h2⟩
  · rw [List.getElem?_append_right (by omega)] at hb
    have : b - s.length = 0 := by
      have := (List.getElem?_eq_some_iff.mp hb).1; simp at this; omega
    rw [this] at hb
    simp only [List.getElem?_cons_zero, Option.some.injEq] at hb
    subst hb
    refine ⟨cs, ?_, hr⟩
    rw [List.getElem?_append_right (by rw [← h.1]; omega), ← h.1, this]; rfl

theorem StrSim.lookup {s : StrRun.Store} {t : StrSpec.Store} (h : StrSim s t) (l : List Nat) :
    (StrRun.lookup s l = none ∧ StrSpec.lookup t l = none) ∨
    ∃ ps : List (S × List Nat), StrRun.lookup s l = some (ps.map Prod.fst) ∧ StrSpec.lookup t l = some (ps.map Prod.snd) ∧ ∀ p ∈ ps, Rep p.1 p.2 := by
  induction l with
  | nil => right; exact ⟨[], rfl, rfl, by simp⟩
  | cons a l ih =>
    unfold StrRun.lookup StrSpec.lookup
    rcases h.get a with ⟨h1, h2⟩ | ⟨x, cs, h1, h2, h3⟩
    · left; rw [h1, h2]; exact ⟨rfl, rfl⟩
    · rw [h1, h2]
      rcases ih with ⟨e1, e2⟩ | ⟨ps, e1, e2, e3⟩
      · left; rw [e1, e2]; exact ⟨rfl, rfl⟩
      · right
        refine ⟨(x, cs) :: ps, by rw [e1]; rfl, by rw [e2]; rfl, ?_⟩
        intro p hp
        rcases List.mem_cons.mp hp with rfl | hp
        · exact h3
        · exact e3 p hp

def StrStepOk (s : StrRun.Store) (r : Option (StrRun.Store × StrObs)) (P : StrObs → StrSpec.Store → Prop) : Prop :=
  ∃ s' o t', r = some (s', o) ∧ StrSim s' t' ∧ P o t'

theorem str_makes (env : Env) (s : StrRun.Store) (t : StrSpec.Store) (h : StrSim s t) (f : Out S) (cs : List Nat)
    (hf : (∃ r, f = .ok r ∧ Rep r cs) ∨ (f = .raise .outOfMemory ∧ env.mem = false)) :
    StrStepOk s (StrRun.push s f) (StrSpec.makes env t cs) := by
  rcases hf with ⟨r, rfl, hr⟩ | ⟨rfl, hm⟩
  · exact ⟨_, _, _, rfl, h.push r cs hr, Or.inl ⟨by rw [h.1], rfl⟩⟩
  · exact ⟨_, _, t, rfl, h, Or.inr ⟨rfl, rfl, hm⟩⟩

theorem str_fails (s : StrRun.Store) (t : StrSpec.Store) (h : StrSim s t) (f : Out S) (e : Err) (hf : f = .raise e) :
    StrStepOk s (StrRun.push s f) (StrSpec.fails t e) := by
  subst hf
  exact ⟨_, _, t, rfl, h, rfl, rfl⟩

theorem str_on (s : StrRun.Store) (t : StrSpec.Store) (h : StrSim s t) (a : Nat) (f : S → Option (StrRun.Store × StrObs))
    (P : List Nat → StrObs → StrSpec.Store → Prop)
    (hf : ∀ x cs, s[a]? = some x → t[a]? = some cs → Rep x cs → StrStepOk s (f x) (P cs)) :
    StrStepOk s (StrRun.on s a f) (fun o t' => StrSpec.on t a o t' fun cs => P cs o t') := by
  unfold StrRun.on StrSpec.on
  rcases h.get a with ⟨h1, h2⟩ | ⟨x, cs, h1, h2, h3⟩
  · rw [h1, h2]; exact ⟨s, .noStr, t, rfl, h, rfl, rfl⟩
  · rw [h1, h2]; exact hf x cs h1 h2 h3

theorem char_index (cs : List Nat) (i : Int) :
    (ArrSpec.index i cs.length).bind (cs[·]?) =
      (if i < 0 then (if 0 ≤ i + cs.length then cs[(i + cs.length).toNat]? else none) else cs[i.toNat]?) := by
  unfold ArrSpec.index
  by_cases hi : i < 0
  · rw [if_neg (show ¬ (0 ≤ i ∧ i < cs.length) by omega), if_pos hi]
    by_cases h0 : 0 ≤ i + cs.length
    · rw [if_pos ⟨hi, h0⟩, if_pos h0]; rfl
    · rw [if_neg (fun c => h0 c.2), if_neg h0]; rfl
  · rw [if_neg hi]
    by_cases h0 : i < cs.length
    · rw [if_pos ⟨by omega, h0⟩]; rfl
    · rw [if_neg (fun c => h0 c.2), if_neg (fun c => hi c.1), Option.bind_none]
      symm
      rw [List.getElem?_eq_none_iff]; omega

theorem range_clamp (cs : List Nat) (b e : Int) :
    (cs.take (Str.range cs.length b e).2.toNat).drop (Str.range cs.length b e).1.toNat = ArrSpec.slice cs b e := by
  obtain ⟨h1, h2, h3, h4, h5⟩ := Str.range_spec cs.length b e
  unfold ArrSpec.slice ArrSpec.clamp
  rw [h4] at h5
  rw [h5, h4]
  by_cases hb : b < 0
  · rw [if_pos hb]
    by_cases he : e < 0
    · rw [if_pos he]
      simp only [hb, he, if_true]
      by_cases hc : e + cs.length ≤ max 0 (b + cs.length)
      · rw [List.drop_of_length_le (by rw [List.length_take]; omega)]
        rw [List.drop_of_length_le (by rw [List.length_take]; omega)]
      · congr 1
        · omega
        · congr 1; omega
    · rw [if_neg he]
      simp only [hb, he, if_true, if_false]
      by_cases hc : min e cs.length ≤ max 0 (b + cs.length)
      · rw [List.drop_of_length_le (by rw [List.length_take]; omega)]
        rw [List.drop_of_length_le (by rw [List.length_take]; omega)]
      · congr 1
        · omega
        · congr 1; omega
  · rw [if_neg hb]
    by_cases he : e < 0
    · rw [if_pos he]
      simp only [hb, he, if_true, if_false]
      by_cases hc : e + cs.length ≤ b
      · rw [List.drop_of_length_le (by rw [List.length_take]; omega)]
        rw [List.drop_of_length_le (by rw [List.length_take]; omega)]
      · congr 1
        · omega
        · congr 1; omega
    · rw [if_neg he]
      simp only [hb, he, if_false]
      by_cases hc : min e cs.length ≤ b
      · rw [List.drop_of_length_le (by rw [List.length_take]; omega)]
        rw [List.drop_of_length_le (by rw [List.length_take]; omega)]
      · congr 1
        · omega
        · congr 1; omega

theorem str_step_ok (env : Env) (s : StrRun.Store) (t : StrSpec.Store) (h : StrSim s t) (op : StrOp) (hl : StrSpec.Legal t op) :
    StrStepOk s (StrRun.step env s op) (StrSpec.Step env t op) := by
  cases op with
  | codes l =>
    obtain ⟨f1, f2, f3⟩ := fromCodes_spec env l
    change StrStepOk s (StrRun.push s (fromCodes env l)) (fun o t' => if 65535 < l.length then StrSpec.fails t .tooLarge o t'
      else if ∃ c ∈ l, c < 0 ∨ 0x1FFFFF < c then StrSpec.fails t .badCode o t'
      else StrSpec.makes env t (l.map Int.toNat) o t')
    by_cases h1 : 65535 < l.length
    · simp only [if_pos h1]
      exact str_fails s t h _ _ (f1 h1)
    · by_cases h2 : ∃ c ∈ l, c < 0 ∨ 0x1FFFFF < c
      · simp only [if_neg h1, if_pos h2]
        exact str_fails s t h _ _ (f2 (by omega) h2)
      · simp only [if_neg h1, if_neg h2]
        exact str_makes env s t h _ _ (f3 (by omega) (fun c hc => by
          constructor
          · exact Int.not_lt.mp (fun k => h2 ⟨c, hc, Or.inl k⟩)
          · exact Int.not_lt.mp (fun k => h2 ⟨c, hc, Or.inr k⟩)))
  | slice a b e =>
    exact str_on s t h a _ (fun cs o t' => StrSpec.makes env t (ArrSpec.slice cs b e) o t') fun x cs _ _ hr => by
      have := slice_spec env x cs b e hr
      rw [range_clamp] at this
      exact str_makes env s t h _ _ this
  | add l =>
    change StrStepOk s (match StrRun.lookup s l with
      | none => some (s, .noStr)
      | some xs => StrRun.push s (addN env xs)) (fun o t' => match StrSpec.lookup t l with
      | none => o = .noStr ∧ t' = t
      | some parts => if 65535 < parts.flatten.length then StrSpec.fails t .tooLong o t' else StrSpec.makes env t parts.flatten o t')
    rcases h.lookup l with ⟨e1, e2⟩ | ⟨ps, e1, e2, e3⟩
    · rw [e1, e2]; exact ⟨s, .noStr, t, rfl, h, rfl, rfl⟩
    · rw [e1, e2]
      obtain ⟨g1, g2⟩ := addN_spec env ps e3 (hl _ (by rw [e2]; rfl))
      simp only
      by_cases hc : 65535 < (ps.map Prod.snd).flatten.length
      · simp only [if_pos hc]
        exact str_fails s t h _ _ (g2 hc)
      · simp only [if_neg hc]
        exact str_makes env s t h _ _ (g1 (by omega))
  | repeats a n =>
    refine str_on s t h a _ (fun cs o t' => if n < 0 ∨ 65535 < n ∨ 65535 < n * cs.length then StrSpec.fails t .tooManyRepeats o t'
      else StrSpec.makes env t (List.replicate n.toNat cs).flatten o t') fun x cs _ _ hr => ?_
    unfold Str.repeats
    rw [hr.len]
    by_cases hc : n < 0 ∨ 65535 < n ∨ 65535 < n * cs.length
    · simp only [if_pos hc]
      exact str_fails s t h _ _ rfl
    · simp only [if_neg hc]
      apply str_makes env s t h
      apply (repeat_spec env x cs n.toNat hr).1
      have h0 : 0 ≤ n := Int.not_lt.mp (fun k => hc (Or.inl k))
      have h2 : n * cs.length ≤ 65535 := Int.not_lt.mp (fun k => hc (Or.inr (Or.inr k)))
      have h3 : ((n.toNat * cs.length : Nat) : Int) ≤ 65535 := by
        rw [Int.natCast_mul, Int.toNat_of_nonneg h0]; exact h2
      omega
  | reverse a =>
    exact str_on s t h a _ (fun cs o t' => StrSpec.makes env t cs.reverse o t') fun x cs _ _ hr =>
      str_makes env s t h _ _ (reverse_spec env x cs hr)
  | char a i =>
    refine str_on s t h a _ (fun cs o t' => match (ArrSpec.index i cs.length).bind (cs[·]?) with
      | none => StrSpec.fails t .badIndex o t'
      | some c => StrSpec.makes env t [c] o t') fun x cs _ _ hr => ?_
    have h1 := getCharCode_spec x cs i hr
    have h2 := getChar_spec env x cs i hr
    rw [← char_index] at h1
    cases hc : (ArrSpec.index i cs.length).bind (cs[·]?) with
    | none =>
      rw [hc] at h1
      rw [h1] at h2
      exact str_fails s t h _ _ h2
    | some c =>
      rw [hc] at h1
      rw [h1] at h2
      exact str_makes env s t h _ _ h2
  | code a i =>
    refine str_on s t h a _ (fun cs o t' => match (ArrSpec.index i cs.length).bind (cs[·]?) with
      | none => StrSpec.fails t .badIndex o t'
      | some c => o = .num c ∧ t' = t) fun x cs _ _ hr => ?_
    have h1 := getCharCode_spec x cs i hr
    rw [← char_index] at h1
    cases hc : (ArrSpec.index i cs.length).bind (cs[·]?) with
    | none => rw [hc] at h1; simp only [h1]; exact ⟨_, _, t, rfl, h, rfl, rfl⟩
    | some c => rw [hc] at h1; simp only [h1]; exact ⟨_, _, t, rfl, h, rfl, rfl⟩
  | hash a =>
    refine str_on s t h a _ (fun cs o t' => o = .num (StrSpec.djb2a cs) ∧ t' = t) fun x cs _ ht hr => ?_
    obtain ⟨x', e1, e2⟩ := getHash_spec false x cs hr (by simp)
    simp only [e1]
    exact ⟨_, _, t, rfl, h.set a x' cs ht e2, rfl, rfl⟩
  | size a =>
    exact str_on s t h a _ (fun cs o t' => o = .num cs.length ∧ t' = t) fun x cs _ _ hr =>
      ⟨_, _, t, rfl, h, by rw [hr.len], rfl⟩

theorem str_run_ok (h : List (StrOp × Env)) : ∀ (s : StrRun.Store) (t : StrSpec.Store), StrSim s t → StrSpec.Good t h (StrRun.run s h) := by
  induction h with
  | nil => intro s t _; rfl
  | cons p h ih =>
    intro s t hs
    obtain ⟨op, env⟩ := p
    intro hl
    obtain ⟨s', o, t', e1, e2, e3⟩ := str_step_ok env s t hs op hl
    refine ⟨o, t', StrRun.run s' h, e3, ?_, ih s' t' e2⟩
    simp only [StrRun.run, e1]

/-- Strings behave as character sequences, as long as no concatenation is asked for 2^32 characters or more. -/
theorem C29_strings_partial (h : List (StrOp × Env)) : StrSpec.Good [] h (StrRun.run [] h) :=
  str_run_ok h [] [] ⟨rfl, by simp⟩

/-- The full claim for concatenation. -/
def C29_add_full : Prop :=
  ∀ (env : Env) (l : List (S × List Nat)), (∀ p ∈ l, Rep p.1 p.2) → 65535 < (l.map Prod.snd).flatten.length →
    addN env (l.map Prod.fst) = .raise .tooLong

theorem flatten_two (n : Nat) (s t : S) (cs ds : List Nat) :
    ((List.replicate n (s, cs) ++ [(t, ds)]).map Prod.snd).flatten.length = n * cs.length + ds.length := by
  rw [List.map_append, List.map_replicate, List.flatten_append, List.length_append, length_flatten_replicate]
  simp

theorem add_wraps (env : Env) (s t : S) (cs ds : List Nat) (hs : Rep s cs) (ht : Rep t ds) (hn : cs.length = 65535) (hd : ds.length = 1) :
    addN env ((List.replicate 65537 (s, cs) ++ [(t, ds)]).map Prod.fst) = .ok empty := by
  have hr : ∀ p ∈ List.replicate 65537 (s, cs) ++ [(t, ds)], Rep p.1 p.2 := by
    intro p hp
    rcases List.mem_append.mp hp with hp | hp
    · rw [(List.mem_replicate.mp hp).2]; exact hs
    · rw [List.mem_singleton.mp hp]; exact ht
  have hz : ((List.replicate 65537 (s, cs) ++ [(t, ds)]).map Prod.snd).flatten.length % 4294967296 = 0 := by
    rw [flatten_two, hn, hd]
  have hlen : (List.replicate 65537 (s, cs) ++ [(t, ds)]).length = 65538 := by
    rw [List.length_append, List.length_replicate]; rfl
  generalize List.replicate 65537 (s, cs) ++ [(t, ds)] = l at hr hz hlen
  rw [addN_many env _ (by rw [List.length_map, hlen]; decide), addMany, addScan_spec l hr]
  simp only
  rw [hz, if_neg (fun c => c.2 rfl), if_neg (fun c => c rfl)]

/-- An 8-bit string of 65535 characters. -/
theorem exists_long : ∃ s, Rep s (List.replicate 65535 97) ∧ ∃ t, Rep t [97] := by
  let env : Env := ⟨true, 0, fun _ => 0⟩
  have h1 : ∃ t, Rep t [97] := ⟨⟨.w8, true, .ptr, 1, 0, 0, [97]⟩, rfl, by simp, ⟨[], rfl⟩, by simp [Width.bytes], by simp, rfl, Or.inl rfl⟩
  obtain ⟨t, ht⟩ := h1
  have := (repeat_spec env t [97] 65535 ht).1 (Nat.le_refl _)
  rcases this with ⟨r, _, hr⟩ | ⟨_, hc⟩
  · refine ⟨r, ?_, t, ht⟩
    have e : ∀ n, (List.replicate n [97]).flatten = List.replicate n 97 := by
      intro n
      induction n with
      | zero => rfl
      | succ n ih => rw [List.replicate_succ, List.flatten_cons, ih, List.replicate_succ]; rfl
    rw [e] at hr
    exact hr
  · exact absurd hc (by simp [env])

/-- The code violates it: the lengths are added up in 32 bits, so 65537 strings of 65535 characters and one of one character
are joined into the empty string (core/kos_string.c:751). -/
theorem C29_add_violated : ¬ C29_add_full := by
  intro h
  obtain ⟨s, hs, t, ht⟩ := exists_long
  have hn : (List.replicate 65535 97).length = 65535 := List.length_replicate
  have hw := add_wraps ⟨true, 0, fun _ => 0⟩ s t _ _ hs ht hn rfl
  have := h ⟨true, 0, fun _ => 0⟩ (List.replicate 65537 (s, List.replicate 65535 97) ++ [(t, [97])]) (by
    intro p hp
    rcases List.mem_append.mp hp with hp | hp
    · rw [(List.mem_replicate.mp hp).2]; exact hs
    · rw [List.mem_singleton.mp hp]; exact ht) (by rw [flatten_two, hn]; decide)
  rw [hw] at this
  exact absurd this (by simp)

/-- With a last string of two characters the result gets room for one character, and copying runs out of bounds. -/
theorem C29_add_unsafe_violated (env : Env) (s t : S) (cs ds : List Nat) (hs : Rep s cs) (ht : Rep t ds) (hn : cs.length = 65535)
    (hd : ds.length = 2) (hw : s.width = .w8) (hw' : t.width = .w8) (hm : env.mem = true) :
    addN env ((List.replicate 65537 (s, cs) ++ [(t, ds)]).map Prod.fst) = .bad := by
  have hr : ∀ p ∈ List.replicate 65537 (s, cs) ++ [(t, ds)], Rep p.1 p.2 ∧ p.1.width = .w8 := by
    intro p hp
    rcases List.mem_append.mp hp with hp | hp
    · rw [(List.mem_replicate.mp hp).2]; exact ⟨hs, hw⟩
    · rw [List.mem_singleton.mp hp]; exact ⟨ht, hw'⟩
  have hz : ((List.replicate 65537 (s, cs) ++ [(t, ds)]).map Prod.snd).flatten.length % 4294967296 = 1 := by
    rw [flatten_two, hn, hd]
  have hlen : (List.replicate 65537 (s, cs) ++ [(t, ds)]).length = 65538 := by
    rw [List.length_append, List.length_replicate]; rfl
  have hfil : ((List.replicate 65537 (s, cs) ++ [(t, ds)]).filter (fun p => p.2 ≠ [])).length ≠ 1 := by
    rw [List.filter_eq_self.mpr, hlen]
    · decide
    · intro p hp
      rcases List.mem_append.mp hp with hp | hp
      · rw [(List.mem_replicate.mp hp).2]
        have : cs ≠ [] := by intro c; rw [c] at hn; simp at hn
        simpa using this
      · rw [List.mem_singleton.mp hp]
        have : ds ≠ [] := by intro c; rw [c] at hd; simp at hd
        simpa using this
  obtain ⟨l', hl'⟩ : ∃ l', List.replicate 65537 (s, cs) ++ [(t, ds)] = (s, cs) :: l' :=
    ⟨List.replicate 65536 (s, cs) ++ [(t, ds)], by rw [List.replicate_succ]; rfl⟩
  generalize List.replicate 65537 (s, cs) ++ [(t, ds)] = l at hr hz hlen hfil hl'
  rw [addN_many env _ (by rw [List.length_map, hlen]; decide), addMany, addScan_spec l (fun p hp => (hr p hp).1)]
  simp only
  rw [hz, if_neg (fun c => hfil c.1), if_pos (by decide), if_pos (by decide)]
  have h16 : l.any (fun p => p.1.width == .w16) = false := by
    rw [List.any_eq_false]; intro p hp; rw [(hr p hp).2]; decide
  have h32 : l.any (fun p => p.1.width == .w32) = false := by
    rw [List.any_eq_false]; intro p hp; rw [(hr p hp).2]; decide
  rw [h16, h32, hl', List.map_cons]
  generalize (((s, cs) :: l').all fun p => p.1.ascii) = asc
  have hc : initEmpty ⟨.w8, asc, .inObj, 1, 0, 8 * env.base, (List.range (1 <<< (0 + if asc then 4 else 0))).map (env.junk · % 256)⟩ 0 s s.len = none := by
    unfold initEmpty
    rw [hs.len, hn]
    simp only [Nat.reduceEqDiff, if_false]
    rw [if_neg (by omega), if_pos hw.symm, hw]
    by_cases hml : 65535 * Width.w8.bytes ≤ s.mem.length
    · rw [if_pos hml]
      unfold put
      have hml' : 65535 * 1 ≤ s.mem.length := hml
      have : (List.take (65535 * Width.w8.bytes) s.mem).length = 65535 := by rw [List.length_take]; exact Nat.min_eq_left hml'
      rw [this, if_neg]
      · rfl
      · rw [List.length_map, List.length_range]
        cases asc <;> decide
    · rw [if_neg hml]
  unfold newEmpty addWidth
  simp only [hm, if_true, Bool.false_eq_true, if_false]
  rw [if_neg (by omega)]
  simp only
  rw [addCopy]
  change (match (match initEmpty ⟨.w8, asc, .inObj, 1, 0, 8 * env.base, (List.range (1 <<< (0 + if asc then 4 else 0))).map (env.junk · % 256)⟩ 0 s s.len with
    | none => none
    | some d => addCopy d (l'.map Prod.fst) (0 + s.len)) with
    | none => Out.bad
    | some d' => .ok d') = .bad
  rw [hc]

/-- A run over three widths: "a", U+100 and U+10000 are joined, reversed, repeated and sliced. -/
example :
    let env : Env := ⟨true, 5, fun i => i⟩
    StrRun.run [] [(.codes [97], env), (.codes [256], env), (.codes [65536, 98], env), (.add [0, 1, 2, 0], env), (.reverse 3, env),
      (.repeats 4 3, env), (.size 5, env), (.slice 5 (-13) 100, env), (.code 6 0, env), (.code 6 (-1), env), (.char 6 2, env),
      (.hash 7, env), (.hash 0, env), (.repeats 5 65535, env), (.code 5 15, env), (.codes [-1], env)]
    = some [.str 0, .str 1, .str 2, .str 3, .str 4, .str 5, .num 15, .str 6, .num 65536, .num 97, .str 7, .num 177604, .num 177604,
        .exc .tooManyRepeats, .exc .badIndex, .exc .badCode] := by
  decide +kernel

end Verif.Props
