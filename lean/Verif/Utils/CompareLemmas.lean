import Verif.Utils.Compare
import Verif.Props.C26

/-! Lemmas on the comparison of values. -/
namespace Verif.Utils

open Verif.Str (Rep)
open Verif.Props (ByCode Orders C26_order_partial lex_irrefl)

/-! ### Values as trees -/

inductive Tree
  | int (n : Int)
  | void
  | bool (b : Bool)
  | str (cs : List Nat)
  | arr (ts : List Tree)
  | buf (bs : List Nat)

/-- Numbers, then void, booleans, strings, arrays, buffers. -/
def Tree.kind : Tree → Nat
  | .int _ => 0
  | .void => 1
  | .bool _ => 2
  | .str _ => 3
  | .arr _ => 4
  | .buf _ => 5

mutual
/-- The order of values. -/
inductive TLt : Tree → Tree → Prop
  | kind (s t : Tree) : s.kind < t.kind → TLt s t
  | int (a b : Int) : a < b → TLt (.int a) (.int b)
  | bool : TLt (.bool false) (.bool true)
  | str (cs ds : List Nat) : cs < ds → TLt (.str cs) (.str ds)
  | buf (cs ds : List Nat) : cs < ds → TLt (.buf cs) (.buf ds)
  | arr (ts us : List Tree) : LLt ts us → TLt (.arr ts) (.arr us)
/-- Lexicographic order of lists. -/
inductive LLt : List Tree → List Tree → Prop
  | nil (t : Tree) (ts : List Tree) : LLt [] (t :: ts)
  | head (t u : Tree) (ts us : List Tree) : TLt t u → LLt (t :: ts) (u :: us)
  | tail (t : Tree) (ts us : List Tree) : LLt ts us → LLt (t :: ts) (t :: us)
end

mutual
/-- The value with id `a` is the tree; strings are such that `KOS_string_compare` orders them (C26). -/
def Den (m : Mem) (a : Int) : Tree → Prop
  | .int n => (a % 2 = 0 ∧ n = a / 2) ∨ (a % 2 ≠ 0 ∧ m.heap a = .integer n)
  | .void => a % 2 ≠ 0 ∧ m.heap a = .void
  | .bool b => a % 2 ≠ 0 ∧ m.heap a = .bool b
  | .str cs => a % 2 ≠ 0 ∧ ∃ s, m.heap a = .str s ∧ Rep s cs ∧ (s.width = .w8 ∨ s.addr % 8 = 0)
  | .arr ts => a % 2 ≠ 0 ∧ ∃ es, m.heap a = .arr es ∧ DenL m es ts
  | .buf bs => a % 2 ≠ 0 ∧ m.heap a = .buf bs
def DenL (m : Mem) : List Int → List Tree → Prop
  | [], [] => True
  | e :: es, t :: ts => Den m e t ∧ DenL m es ts
  | _, _ => False
end

mutual
def Tree.depth : Tree → Nat
  | .arr ts => depthL ts + 1
  | _ => 0
def depthL : List Tree → Nat
  | [] => 0
  | t :: ts => max t.depth (depthL ts)
end

/-- `x` is an element of an element ... (`n` times) of `a`. -/
inductive At (m : Mem) : Nat → Int → Int → Prop
  | here (a : Int) : At m 0 a a
  | elem (n : Nat) (a e x : Int) (es : List Int) : a % 2 ≠ 0 → m.heap a = .arr es → e ∈ es → At m n e x → At m (n + 1) a x

/-- An array which is inside of both values is at the same depth in both. -/
def NoCross (m : Mem) (a b : Int) : Prop :=
  ∀ i j x, At m i a x → At m j b x → (∃ es, x % 2 ≠ 0 ∧ m.heap x = .arr es) → i = j

theorem DenL.length {m : Mem} {es : List Int} {ts : List Tree} (h : DenL m es ts) : es.length = ts.length := by
  induction es generalizing ts with
  | nil => cases ts with
    | nil => rfl
    | cons => simp [DenL] at h
  | cons e es ih => cases ts with
    | nil => simp [DenL] at h
    | cons t ts => simp only [DenL] at h; simp [ih h.2]

theorem rep_unique {s : Str.S} {cs ds : List Nat} (h1 : Rep s cs) (h2 : Rep s ds) : cs = ds := by
  obtain ⟨r1, e1⟩ := h1.mem
  obtain ⟨r2, e2⟩ := h2.mem
  have hl : cs.length = ds.length := by rw [← h1.len, h2.len]
  refine Str.enc_inj _ cs ds h1.fit h2.fit hl ?_
  have := e1.symm.trans e2
  exact (List.append_inj this (by rw [Str.enc_length, Str.enc_length, hl])).1

mutual
theorem Den.unique {m : Mem} {a : Int} : (t u : Tree) → Den m a t → Den m a u → t = u
  | .int n, u, h1, h2 => by cases u <;> simp only [Den] at h1 h2 <;> grind
  | .void, u, h1, h2 => by cases u <;> simp only [Den] at h1 h2 <;> grind
  | .bool b, u, h1, h2 => by cases u <;> simp only [Den] at h1 h2 <;> grind
  | .str cs, u, h1, h2 => by
    cases u <;> simp only [Den] at h1 h2
    case str ds =>
      obtain ⟨_, s, e1, e2, _⟩ := h1
      obtain ⟨_, s', e3, e4, _⟩ := h2
      rw [e1] at e3
      injection e3 with e3
      subst e3
      rw [rep_unique e2 e4]
    all_goals grind
  | .buf bs, u, h1, h2 => by cases u <;> simp only [Den] at h1 h2 <;> grind
  | .arr ts, u, h1, h2 => by
    cases u <;> simp only [Den] at h1 h2
    case arr us =>
      obtain ⟨_, es, e1, e2⟩ := h1
      obtain ⟨_, es', e3, e4⟩ := h2
      rw [e1] at e3
      injection e3 with e3
      subst e3
      rw [DenL.unique ts us e2 e4]
    all_goals grind
theorem DenL.unique {m : Mem} {es : List Int} : (ts us : List Tree) → DenL m es ts → DenL m es us → ts = us
  | [], us, h1, h2 => by
    have := h1.length; have := h2.length
    cases us with
    | nil => rfl
    | cons => simp_all
  | t :: ts, us, h1, h2 => by
    cases es with
    | nil => simp [DenL] at h1
    | cons e es =>
      cases us with
      | nil => simp [DenL] at h2
      | cons u us =>
        simp only [DenL] at h1 h2
        rw [Den.unique t u h1.1 h2.1, DenL.unique ts us h1.2 h2.2]
end

/-! ### The order is strict and transitive -/

mutual
theorem TLt.irrefl : (t : Tree) → ¬ TLt t t
  | .int n, h => by cases h <;> simp [Tree.kind] at *
  | .void, h => by cases h; simp [Tree.kind] at *
  | .bool b, h => by cases h; simp [Tree.kind] at *
  | .str cs, h => by
    cases h with
    | kind _ _ h => exact absurd h (Nat.lt_irrefl _)
    | str _ _ h => exact lex_irrefl _ h
  | .buf cs, h => by
    cases h with
    | kind _ _ h => exact absurd h (Nat.lt_irrefl _)
    | buf _ _ h => exact lex_irrefl _ h
  | .arr ts, h => by
    cases h with
    | kind _ _ h => exact absurd h (Nat.lt_irrefl _)
    | arr _ _ h => exact LLt.irrefl ts h
theorem LLt.irrefl : (ts : List Tree) → ¬ LLt ts ts
  | [], h => by cases h
  | t :: ts, h => by
    cases h with
    | head _ _ _ _ h => exact TLt.irrefl t h
    | tail _ _ _ h => exact LLt.irrefl ts h
end

theorem TLt.kind_le {s t : Tree} (h : TLt s t) : s.kind ≤ t.kind := by
  cases h with
  | kind _ _ h => omega
  | _ => simp [Tree.kind]

theorem TLt.of_kind_le {s t u : Tree} (h1 : TLt s t) (h2 : TLt t u) (h : s.kind < t.kind ∨ t.kind < u.kind) : TLt s u :=
  .kind _ _ (by have := h1.kind_le; have := h2.kind_le; omega)

mutual
theorem TLt.trans : (s t u : Tree) → TLt s t → TLt t u → TLt s u
  | s, t, u, h1, h2 => by
    by_cases hk : s.kind < t.kind ∨ t.kind < u.kind
    · exact h1.of_kind_le h2 hk
    · cases h1 with
      | kind _ _ h => exact absurd (Or.inl h) hk
      | int a b h =>
        cases h2 with
        | kind _ _ h => exact absurd (Or.inr h) hk
        | int _ c h' => exact .int _ _ (by omega)
      | bool =>
        cases h2 with
        | kind _ _ h => exact absurd (Or.inr h) hk
      | str a b h =>
        cases h2 with
        | kind _ _ h => exact absurd (Or.inr h) hk
        | str _ c h' => exact .str _ _ (List.lt_trans h h')
      | buf a b h =>
        cases h2 with
        | kind _ _ h => exact absurd (Or.inr h) hk
        | buf _ c h' => exact .buf _ _ (List.lt_trans h h')
      | arr a b h =>
        cases h2 with
        | kind _ _ h => exact absurd (Or.inr h) hk
        | arr _ c h' => exact .arr _ _ (LLt.trans a b c h h')
theorem LLt.trans : (ss ts us : List Tree) → LLt ss ts → LLt ts us → LLt ss us
  | ss, ts, us, h1, h2 => by
    cases h1 with
    | nil t ts =>
      cases h2 <;> exact .nil _ _
    | head s t ss ts h =>
      cases h2 with
      | head _ u _ us h' => exact .head _ _ _ _ (TLt.trans s t u h h')
      | tail _ _ us h' => exact .head _ _ _ _ h
    | tail t ss ts h =>
      cases h2 with
      | head _ u _ us h' => exact .head _ _ _ _ h'
      | tail _ _ us h' => exact .tail _ _ _ (LLt.trans ss ts us h h')
end

/-! ### Depth -/

theorem Den.at {m : Mem} {n : Nat} {a x : Int} (h : At m n a x) : ∀ t, Den m a t → ∃ u, Den m x u ∧ u.depth + n ≤ t.depth := by
  induction h with
  | here a => intro t h; exact ⟨t, h, Nat.le_refl _⟩
  | elem n a e x es h1 h2 h3 _ ih =>
    intro t ht
    have : ∃ ts, t = .arr ts ∧ DenL m es ts := by
      cases t <;> simp only [Den] at ht
      case arr ts =>
        obtain ⟨_, es', e1, e2⟩ := ht
        rw [h2] at e1
        injection e1 with e1
        subst e1
        exact ⟨ts, rfl, e2⟩
      all_goals grind
    obtain ⟨ts, rfl, hl⟩ := this
    have : ∃ t', Den m e t' ∧ t'.depth ≤ depthL ts := by
      clear ht h2 ih
      induction es generalizing ts with
      | nil => simp at h3
      | cons y es ih =>
        cases ts with
        | nil => simp [DenL] at hl
        | cons t ts =>
          simp only [DenL] at hl
          rw [depthL]
          rcases List.mem_cons.mp h3 with rfl | h3
          · exact ⟨t, hl.1, by omega⟩
          · obtain ⟨t', e1, e2⟩ := ih h3 ts hl.2
            exact ⟨t', e1, by omega⟩
    obtain ⟨t', e1, e2⟩ := this
    obtain ⟨u, f1, f2⟩ := ih t' e1
    refine ⟨u, f1, ?_⟩
    rw [Tree.depth]; omega

/-- A value which is a finite tree does not contain itself. -/
theorem Den.no_cycle {m : Mem} {n : Nat} {a : Int} {t : Tree} (h : Den m a t) (ha : At m n a a) : n = 0 := by
  obtain ⟨u, e1, e2⟩ := Den.at ha t h
  rw [Den.unique u t e1 h] at e2
  omega

theorem At.snoc {m : Mem} {n : Nat} {a b e : Int} {es : List Int} (h : At m n a b) (h1 : b % 2 ≠ 0) (h2 : m.heap b = .arr es) (h3 : e ∈ es) :
    At m (n + 1) a e := by
  induction h with
  | here a => exact .elem 0 _ e e es h1 h2 h3 (.here e)
  | elem n a e' x es' g1 g2 g3 _ ih => exact .elem (n + 1) _ e' _ es' g1 g2 g3 (ih h1 h2)

theorem At.trans {m : Mem} {i j : Nat} {a b c : Int} (h1 : At m i a b) (h2 : At m j b c) : At m (i + j) a c := by
  induction h1 with
  | here a => rw [Nat.zero_add]; exact h2
  | elem n a e x es g1 g2 g3 _ ih => rw [show n + 1 + j = (n + j) + 1 by omega]; exact .elem _ _ e _ es g1 g2 g3 (ih h2)

/-! ### Comparison of trees -/

/-- What the enclosing arrays satisfy. -/
def RefsOk (m : Mem) (refs : List (Int × Int)) (a b : Int) : Prop :=
  ∀ r ∈ refs, (∃ k, 0 < k ∧ At m k r.1 a ∧ At m k r.2 b) ∧ NoCross m r.1 r.2 ∧ (∃ t, Den m r.1 t) ∧ ∃ u, Den m r.2 u

theorem checkRefs_none {m : Mem} {refs : List (Int × Int)} {a b : Int} (h : RefsOk m refs a b)
    (ha : ∃ es, a % 2 ≠ 0 ∧ m.heap a = .arr es) (hb : ∃ es, b % 2 ≠ 0 ∧ m.heap b = .arr es) : checkRefs a b refs = none := by
  induction refs with
  | nil => rfl
  | cons r refs ih =>
    obtain ⟨⟨k, k0, k1, k2⟩, hn, ⟨t, ht⟩, u, hu⟩ := h r (by simp)
    obtain ⟨ra, rb⟩ := r
    simp only at k1 k2 hn ht hu
    have n1 : a ≠ ra := by rintro rfl; have := ht.no_cycle k1; omega
    have n2 : b ≠ rb := by rintro rfl; have := hu.no_cycle k2; omega
    have n3 : a ≠ rb := by rintro rfl; have := hn k 0 a k1 (.here a) ha; omega
    have n4 : b ≠ ra := by rintro rfl; have := hn 0 k b (.here b) k2 hb; omega
    rw [checkRefs, if_neg (by simp [n1]), if_neg (by simp [n1, n2, n3, n4])]
    exact ih fun r hr => h r (by simp [hr])

/-- The result tells the order of the trees. -/
def Res (c : Cmp) (t u : Tree) : Prop :=
  (c = .less ∧ TLt t u) ∨ (c = .equal ∧ t = u) ∨ (c = .greater ∧ TLt u t)

def Prefixes (ts us : List Tree) : Prop := ts <+: us ∨ us <+: ts

theorem LLt.of_prefix {ts us : List Tree} (h : ts <+: us) (hl : ts.length < us.length) : LLt ts us := by
  induction ts generalizing us with
  | nil => cases us with
    | nil => simp at hl
    | cons u us => exact .nil _ _
  | cons t ts ih =>
    obtain ⟨r, rfl⟩ := h
    exact .tail _ _ _ (ih ⟨r, rfl⟩ (by simpa using hl))

theorem memcmp_spec (xs ys : List Nat) :
    (memcmp xs ys = -1 ∧ xs < ys) ∨ (memcmp xs ys = 1 ∧ ys < xs) ∨ (memcmp xs ys = 0 ∧ (xs <+: ys ∨ ys <+: xs)) := by
  induction xs generalizing ys with
  | nil => right; right; exact ⟨by simp [memcmp], Or.inl (by simp)⟩
  | cons x xs ih =>
    cases ys with
    | nil => right; right; exact ⟨by simp [memcmp], Or.inr (by simp)⟩
    | cons y ys =>
      rw [memcmp]
      by_cases h1 : x < y
      · rw [if_pos h1]; left; exact ⟨rfl, by rw [List.cons_lt_cons_iff]; exact Or.inl h1⟩
      · rw [if_neg h1]
        by_cases h2 : x > y
        · rw [if_pos h2]; right; left; exact ⟨rfl, by rw [List.cons_lt_cons_iff]; exact Or.inl h2⟩
        · rw [if_neg h2]
          have : x = y := by omega
          subst this
          rcases ih ys with ⟨e, h⟩ | ⟨e, h⟩ | ⟨e, h⟩
          · left; exact ⟨e, by rw [List.cons_lt_cons_iff]; exact Or.inr ⟨rfl, h⟩⟩
          · right; left; exact ⟨e, by rw [List.cons_lt_cons_iff]; exact Or.inr ⟨rfl, h⟩⟩
          · right; right
            refine ⟨e, ?_⟩
            rcases h with h | h
            · left; simpa using h
            · right; simpa using h

theorem lex_of_prefix {xs ys : List Nat} (h : xs <+: ys) (hl : xs.length < ys.length) : xs < ys := by
  obtain ⟨r, rfl⟩ := h
  cases r with
  | nil => simp at hl
  | cons c r => have := Props.lex_prefix xs [] (c :: r) (by simp); simpa using this

theorem compareBuf_spec (xs ys : List Nat) : Res (compareBuf xs ys) (.buf xs) (.buf ys) := by
  unfold compareBuf
  simp only
  rcases memcmp_spec xs ys with ⟨e, h⟩ | ⟨e, h⟩ | ⟨e, h⟩
  · rw [e]; left; exact ⟨by simp, .buf _ _ h⟩
  · rw [e]; right; right; exact ⟨by simp, .buf _ _ h⟩
  · rw [e, if_neg (by simp)]
    by_cases h1 : xs.length < ys.length
    · rw [if_pos h1]
      left
      refine ⟨rfl, .buf _ _ (lex_of_prefix ?_ h1)⟩
      rcases h with h | h
      · exact h
      · have := h.length_le; omega
    · rw [if_neg h1]
      by_cases h2 : xs.length > ys.length
      · rw [if_pos h2]
        right; right
        refine ⟨rfl, .buf _ _ (lex_of_prefix ?_ h2)⟩
        rcases h with h | h
        · have := h.length_le; omega
        · exact h
      · rw [if_neg h2]
        right; left
        refine ⟨rfl, ?_⟩
        rcases h with h | h
        · rw [h.eq_of_length (by omega)]
        · rw [h.eq_of_length (by omega)]

theorem compareInt_spec (a b : Int) : Res (compareInt a b) (.int a) (.int b) := by
  unfold compareInt
  by_cases h1 : a < b
  · rw [if_pos h1]; left; exact ⟨rfl, .int _ _ h1⟩
  · rw [if_neg h1]
    by_cases h2 : a > b
    · rw [if_pos h2]; right; right; exact ⟨rfl, .int _ _ h2⟩
    · rw [if_neg h2]; right; left; exact ⟨rfl, by rw [show a = b by omega]⟩

theorem Den.type {m : Mem} {a : Int} {t : Tree} (h : Den m a t) :
    (objType m a = 0 ∧ t.kind = 0) ∨ (objType m a = 2 ∧ t.kind = 0) ∨ (objType m a = 6 ∧ t.kind = 1) ∨ (objType m a = 8 ∧ t.kind = 2) ∨
    (objType m a = 10 ∧ t.kind = 3) ∨ (objType m a = 14 ∧ t.kind = 4) ∨ (objType m a = 16 ∧ t.kind = 5) := by
  unfold objType
  cases t <;> simp only [Den] at h
  case int n =>
    rcases h with ⟨h, _⟩ | ⟨h, e⟩
    · rw [if_pos h]; simp [Tree.kind]
    · rw [if_neg h, e]; simp [Tree.kind, Obj.type]
  case str =>
    obtain ⟨h, s, e, _⟩ := h
    rw [if_neg h, e]; simp [Tree.kind, Obj.type]
  case arr =>
    obtain ⟨h, s, e, _⟩ := h
    rw [if_neg h, e]; simp [Tree.kind, Obj.type]
  all_goals
    obtain ⟨h, e⟩ := h
    rw [if_neg h, e]; simp [Tree.kind, Obj.type]

/-- Ints: also with both representations. -/
theorem compare_ints {m : Mem} {a b x y : Int} (ha : Den m a (.int x)) (hb : Den m b (.int y)) (fuel : Nat) (refs : List (Int × Int)) :
    ∃ c, compare m fuel refs a b = some c ∧ Res c (.int x) (.int y) := by
  by_cases hab : a = b
  · subst hab
    have hxy := Den.unique _ _ ha hb
    unfold compare
    simp only [if_true]
    rcases ha.type with h | h | h | h | h | h | h <;> rw [h.1] <;> exact ⟨_, rfl, Or.inr (Or.inl ⟨rfl, hxy⟩)⟩
  · have ta := ha.type
    have tb := hb.type
    simp only [Tree.kind] at ta tb
    have ta' : objType m a = 0 ∨ objType m a = 2 := by omega
    have tb' : objType m b = 0 ∨ objType m b = 2 := by omega
    have ia : intOf m a = x := by
      unfold intOf
      rcases (by simpa only [Den] using ha : _ ∨ _) with ⟨h, e⟩ | ⟨h, e⟩
      · rw [if_pos h, e]
      · rw [if_neg h, e]
    have ib : intOf m b = y := by
      unfold intOf
      rcases (by simpa only [Den] using hb : _ ∨ _) with ⟨h, e⟩ | ⟨h, e⟩
      · rw [if_pos h, e]
      · rw [if_neg h, e]
    unfold compare
    simp only
    rw [if_neg hab, if_pos (by omega), if_pos (by omega), if_neg (by omega)]
    by_cases h0 : objType m a = 0 ∧ objType m b = 0
    · rw [if_pos h0]
      refine ⟨_, rfl, ?_⟩
      have h1 : a % 2 = 0 ∧ x = a / 2 := by
        rcases (by simpa only [Den] using ha : _ ∨ _) with h | ⟨h, e⟩
        · exact h
        · have := h0.1; unfold objType at this; rw [if_neg h, e] at this; simp [Obj.type] at this
      have h2 : b % 2 = 0 ∧ y = b / 2 := by
        rcases (by simpa only [Den] using hb : _ ∨ _) with h | ⟨h, e⟩
        · exact h
        · have := h0.2; unfold objType at this; rw [if_neg h, e] at this; simp [Obj.type] at this
      have : compareInt a b = compareInt x y := by
        unfold compareInt
        obtain ⟨h1, rfl⟩ := h1
        obtain ⟨h2, rfl⟩ := h2
        have e1 : a < b ↔ a / 2 < b / 2 := by omega
        have e2 : a > b ↔ a / 2 > b / 2 := by omega
        simp only [e1, e2]
      rw [this]
      exact compareInt_spec x y
    · rw [if_neg h0, ia, ib]
      exact ⟨_, rfl, compareInt_spec x y⟩

/-- Values of the same kind, past the check for numbers. -/
theorem compare_same {m : Mem} {a b : Int} {t u : Tree} (ha : Den m a t) (hb : Den m b u) (hk : t.kind = u.kind) (h0 : t.kind ≠ 0)
    (hab : a ≠ b) (fuel : Nat) (refs : List (Int × Int)) :
    compare m fuel refs a b = (match m.heap a, m.heap b with
        | .bool x, .bool y => some (compareInt x.toInt y.toInt)
        | .str s, .str t =>
          (Str.compare m.coll s t).map fun cmp => if cmp < 0 then .less else if cmp ≠ 0 then .greater else .equal
        | .arr xs, .arr ys =>
          match fuel with
          | 0 => none
          | fuel + 1 => compareArray (compare m fuel ((a, b) :: refs)) refs a b xs ys
        | .buf xs, .buf ys => some (compareBuf xs ys)
        | .other _, .other _ => some (compareInt a b)
        | _, _ => none) := by
  have ta := ha.type
  have tb := hb.type
  rw [compare]
  rw [if_neg hab, if_pos (by omega), if_neg (by omega)]
  cases fuel <;> rfl

/-- Values of different kinds. -/
theorem compare_kinds {m : Mem} {a b : Int} {t u : Tree} (ha : Den m a t) (hb : Den m b u) (hk : t.kind ≠ u.kind) (fuel : Nat)
    (refs : List (Int × Int)) : ∃ c, compare m fuel refs a b = some c ∧ Res c t u := by
  have ta := ha.type
  have tb := hb.type
  have hab : a ≠ b := by
    rintro rfl
    rw [Den.unique _ _ ha hb] at hk
    exact hk rfl
  unfold compare
  simp only
  rw [if_neg hab, if_neg (by omega)]
  by_cases h : objType m a < objType m b
  · rw [if_pos h]; exact ⟨_, rfl, Or.inl ⟨rfl, .kind _ _ (by omega)⟩⟩
  · rw [if_neg h]; exact ⟨_, rfl, Or.inr (Or.inr ⟨rfl, .kind _ _ (by omega)⟩)⟩

theorem compare_refl {m : Mem} {a : Int} {t : Tree} (ha : Den m a t) (fuel : Nat) (refs : List (Int × Int)) :
    compare m fuel refs a a = some .equal := by
  unfold compare
  simp only [if_true]
  rcases ha.type with h | h | h | h | h | h | h <;> rw [h.1] <;> rfl

/-- There is one void object. -/
def OneVoid (m : Mem) : Prop := ∀ a b, m.heap a = .void → m.heap b = .void → a = b

mutual
theorem compare_tree {m : Mem} (hv : OneVoid m) (hc : ByCode m.coll) : (t u : Tree) → (a b : Int) → (fuel : Nat) → (refs : List (Int × Int)) →
    t.depth ≤ fuel → Den m a t → Den m b u → RefsOk m refs a b → (refs = [] → NoCross m a b) → ∃ c, compare m fuel refs a b = some c ∧ Res c t u
  | .int x, u, a, b, fuel, refs, _, ha, hb, _, _ => by
    by_cases hk : (Tree.int x).kind = u.kind
    · cases u <;> simp only [Tree.kind] at hk <;> try omega
      exact compare_ints ha hb fuel refs
    · exact compare_kinds ha hb hk fuel refs
  | .void, u, a, b, fuel, refs, _, ha, hb, _, _ => by
    by_cases hk : Tree.void.kind = u.kind
    · cases u <;> simp only [Tree.kind] at hk <;> try omega
      simp only [Den] at ha hb
      have := hv a b ha.2 hb.2
      subst this
      exact ⟨_, compare_refl (t := .void) (by simpa only [Den] using ha) fuel refs, Or.inr (Or.inl ⟨rfl, rfl⟩)⟩
    · exact compare_kinds ha hb hk fuel refs
  | .bool x, u, a, b, fuel, refs, _, ha, hb, _, _ => by
    by_cases hk : (Tree.bool x).kind = u.kind
    · by_cases hab : a = b
      · subst hab
        exact ⟨_, compare_refl ha fuel refs, Or.inr (Or.inl ⟨rfl, Den.unique _ _ ha hb⟩)⟩
      · rw [compare_same ha hb hk (by simp [Tree.kind]) hab]
        cases u <;> simp only [Tree.kind] at hk <;> try omega
        rename_i y
        simp only [Den] at ha hb
        rw [ha.2, hb.2]
        refine ⟨_, rfl, ?_⟩
        cases x <;> cases y
        · exact Or.inr (Or.inl ⟨rfl, rfl⟩)
        · exact Or.inl ⟨rfl, .bool⟩
        · exact Or.inr (Or.inr ⟨rfl, .bool⟩)
        · exact Or.inr (Or.inl ⟨rfl, rfl⟩)
    · exact compare_kinds ha hb hk fuel refs
  | .str x, u, a, b, fuel, refs, _, ha, hb, _, _ => by
    by_cases hk : (Tree.str x).kind = u.kind
    · by_cases hab : a = b
      · subst hab
        exact ⟨_, compare_refl ha fuel refs, Or.inr (Or.inl ⟨rfl, Den.unique _ _ ha hb⟩)⟩
      · rw [compare_same ha hb hk (by simp [Tree.kind]) hab]
        cases u <;> simp only [Tree.kind] at hk <;> try omega
        rename_i y
        simp only [Den] at ha hb
        obtain ⟨_, s, e1, e2, e3⟩ := ha
        obtain ⟨_, s', f1, f2, f3⟩ := hb
        obtain ⟨r, g1, g2⟩ := C26_order_partial m.coll hc s s' x y e2 f2 (by
          rcases e3 with e3 | e3
          · exact Or.inl e3
          · exact Or.inr (Or.inr (Or.inl e3)))
        rw [e1, f1]
        simp only
        rw [g1]
        refine ⟨_, rfl, ?_⟩
        simp only
        by_cases h1 : r < 0
        · rw [if_pos h1]; exact Or.inl ⟨rfl, .str _ _ (g2.lt.mp h1)⟩
        · rw [if_neg h1]
          by_cases h2 : r ≠ 0
          · rw [if_pos h2]; exact Or.inr (Or.inr ⟨rfl, .str _ _ (g2.gt.mp (by omega))⟩)
          · rw [if_neg h2]; exact Or.inr (Or.inl ⟨rfl, by rw [g2.eq.mp (by omega)]⟩)
    · exact compare_kinds ha hb hk fuel refs
  | .buf x, u, a, b, fuel, refs, _, ha, hb, _, _ => by
    by_cases hk : (Tree.buf x).kind = u.kind
    · by_cases hab : a = b
      · subst hab
        exact ⟨_, compare_refl ha fuel refs, Or.inr (Or.inl ⟨rfl, Den.unique _ _ ha hb⟩)⟩
      · rw [compare_same ha hb hk (by simp [Tree.kind]) hab]
        cases u <;> simp only [Tree.kind] at hk <;> try omega
        rename_i y
        simp only [Den] at ha hb
        rw [ha.2, hb.2]
        exact ⟨_, rfl, compareBuf_spec x y⟩
    · exact compare_kinds ha hb hk fuel refs
  | .arr ts, u, a, b, fuel, refs, hd, ha, hb, hr, hn => by
    by_cases hk : (Tree.arr ts).kind = u.kind
    · by_cases hab : a = b
      · subst hab
        exact ⟨_, compare_refl ha fuel refs, Or.inr (Or.inl ⟨rfl, Den.unique _ _ ha hb⟩)⟩
      · rw [compare_same ha hb hk (by simp [Tree.kind]) hab]
        cases u <;> simp only [Tree.kind] at hk <;> try omega
        rename_i us
        have ha0 := ha
        have hb0 := hb
        simp only [Den] at ha hb
        obtain ⟨a1, xs, a2, a3⟩ := ha
        obtain ⟨b1, ys, b2, b3⟩ := hb
        rw [a2, b2]
        simp only
        rw [Tree.depth] at hd
        obtain ⟨fuel, rfl⟩ : ∃ k, fuel = k + 1 := ⟨fuel - 1, by omega⟩
        simp only
        unfold compareArray
        rw [checkRefs_none hr ⟨xs, a1, a2⟩ ⟨ys, b1, b2⟩]
        simp only
        have hnab : NoCross m a b := by
          cases refs with
          | nil => exact hn rfl
          | cons r refs =>
            obtain ⟨⟨k, k0, k1, k2⟩, hn', _, _⟩ := hr r (by simp)
            intro i j x hi hj hx
            have := hn' (k + i) (k + j) x ?_ ?_ hx
            · omega
            · exact At.trans k1 hi
            · exact At.trans k2 hj
        obtain ⟨c, e1, e2⟩ := elems_tree hv hc ts us xs ys fuel ((a, b) :: refs) (by omega) a3 b3 (by
          intro e he f hf
          refine ⟨by simp, ?_⟩
          intro r hr'
          rcases List.mem_cons.mp hr' with rfl | hr'
          · exact ⟨⟨1, by omega, (At.here a).snoc a1 a2 he, (At.here b).snoc b1 b2 hf⟩, hnab, ⟨_, ha0⟩, _, hb0⟩
          · obtain ⟨⟨k, k0, k1, k2⟩, r2⟩ := hr r hr'
            exact ⟨⟨k + 1, by omega, k1.snoc a1 a2 he, k2.snoc b1 b2 hf⟩, r2⟩)
        rw [e1]
        rcases e2 with ⟨rfl, h⟩ | ⟨rfl, h⟩ | ⟨rfl, h⟩
        · exact ⟨_, rfl, Or.inl ⟨rfl, .arr _ _ h⟩⟩
        · exact ⟨_, rfl, Or.inr (Or.inr ⟨rfl, .arr _ _ h⟩)⟩
        · refine ⟨_, rfl, ?_⟩
          have l1 := a3.length
          have l2 := b3.length
          by_cases h1 : xs.length < ys.length
          · rw [if_pos h1]
            refine Or.inl ⟨rfl, .arr _ _ (LLt.of_prefix ?_ (by omega))⟩
            rcases h with h | h
            · exact h
            · have := h.length_le; omega
          · rw [if_neg h1]
            by_cases h2 : xs.length > ys.length
            · rw [if_pos h2]
              refine Or.inr (Or.inr ⟨rfl, .arr _ _ (LLt.of_prefix ?_ (by omega))⟩)
              rcases h with h | h
              · have := h.length_le; omega
              · exact h
            · rw [if_neg h2]
              refine Or.inr (Or.inl ⟨rfl, ?_⟩)
              rcases h with h | h
              · rw [h.eq_of_length (by omega)]
              · rw [h.eq_of_length (by omega)]
    · exact compare_kinds ha hb hk fuel refs
theorem elems_tree {m : Mem} (hv : OneVoid m) (hc : ByCode m.coll) : (ts us : List Tree) → (xs ys : List Int) → (fuel : Nat) →
    (refs : List (Int × Int)) → depthL ts ≤ fuel → DenL m xs ts → DenL m ys us → (∀ x ∈ xs, ∀ y ∈ ys, refs ≠ [] ∧ RefsOk m refs x y) →
    ∃ c, compareElems (compare m fuel refs) xs ys = some c ∧
      ((c = .less ∧ LLt ts us) ∨ (c = .greater ∧ LLt us ts) ∨ (c = .equal ∧ Prefixes ts us))
  | [], us, xs, ys, fuel, refs, _, hx, hy, _ => by
    cases xs with
    | nil => exact ⟨_, by simp [compareElems], Or.inr (Or.inr ⟨rfl, Or.inl (by simp)⟩)⟩
    | cons => simp [DenL] at hx
  | t :: ts, us, xs, ys, fuel, refs, hd, hx, hy, hr => by
    cases xs with
    | nil => simp [DenL] at hx
    | cons x xs =>
      cases us with
      | nil =>
        cases ys with
        | nil => exact ⟨_, by simp [compareElems], Or.inr (Or.inr ⟨rfl, Or.inr (by simp)⟩)⟩
        | cons => simp [DenL] at hy
      | cons u us =>
        cases ys with
        | nil => simp [DenL] at hy
        | cons y ys =>
          simp only [DenL] at hx hy
          rw [depthL] at hd
          obtain ⟨r1, r2⟩ := hr x (by simp) y (by simp)
          obtain ⟨c, e1, e2⟩ := compare_tree hv hc t u x y fuel refs (by omega) hx.1 hy.1 r2 (fun c => absurd c r1)
          rw [compareElems, e1]
          rcases e2 with ⟨rfl, h⟩ | ⟨rfl, h⟩ | ⟨rfl, h⟩
          · exact ⟨_, rfl, Or.inl ⟨rfl, .head _ _ _ _ h⟩⟩
          · subst h
            obtain ⟨c, f1, f2⟩ := elems_tree hv hc ts us xs ys fuel refs (by omega) hx.2 hy.2
              (fun x hx y hy => hr x (by simp [hx]) y (by simp [hy]))
            refine ⟨c, f1, ?_⟩
            rcases f2 with ⟨rfl, h⟩ | ⟨rfl, h⟩ | ⟨rfl, h⟩
            · exact Or.inl ⟨rfl, .tail _ _ _ h⟩
            · exact Or.inr (Or.inl ⟨rfl, .tail _ _ _ h⟩)
            · refine Or.inr (Or.inr ⟨rfl, ?_⟩)
              rcases h with h | h
              · left; simpa using h
              · right; simpa using h
          · exact ⟨_, rfl, Or.inr (Or.inl ⟨rfl, .head _ _ _ _ h⟩)⟩
end

theorem lex_total (xs ys : List Nat) : xs < ys ∨ xs = ys ∨ ys < xs := by
  rcases compareBuf_spec xs ys with ⟨_, h⟩ | ⟨_, h⟩ | ⟨_, h⟩
  · cases h with
    | kind _ _ h => simp [Tree.kind] at h
    | buf _ _ h => exact Or.inl h
  · injection h with h; exact Or.inr (Or.inl h)
  · cases h with
    | kind _ _ h => simp [Tree.kind] at h
    | buf _ _ h => exact Or.inr (Or.inr h)

mutual
theorem TLt.total : (t u : Tree) → TLt t u ∨ t = u ∨ TLt u t
  | t, u => by
    by_cases h1 : t.kind < u.kind
    · exact Or.inl (.kind _ _ h1)
    · by_cases h2 : u.kind < t.kind
      · exact Or.inr (Or.inr (.kind _ _ h2))
      · cases t <;> cases u <;> simp only [Tree.kind] at h1 h2 <;> try omega
        case int a b =>
          rcases Int.lt_trichotomy a b with h | h | h
          · exact Or.inl (.int _ _ h)
          · exact Or.inr (Or.inl (by rw [h]))
          · exact Or.inr (Or.inr (.int _ _ h))
        case void => exact Or.inr (Or.inl rfl)
        case bool a b =>
          cases a <;> cases b
          · exact Or.inr (Or.inl rfl)
          · exact Or.inl .bool
          · exact Or.inr (Or.inr .bool)
          · exact Or.inr (Or.inl rfl)
        case str a b =>
          rcases lex_total a b with h | h | h
          · exact Or.inl (.str _ _ h)
          · exact Or.inr (Or.inl (by rw [h]))
          · exact Or.inr (Or.inr (.str _ _ h))
        case buf a b =>
          rcases lex_total a b with h | h | h
          · exact Or.inl (.buf _ _ h)
          · exact Or.inr (Or.inl (by rw [h]))
          · exact Or.inr (Or.inr (.buf _ _ h))
        case arr ts us =>
          rcases LLt.total ts us with h | h | h
          · exact Or.inl (.arr _ _ h)
          · exact Or.inr (Or.inl (by rw [h]))
          · exact Or.inr (Or.inr (.arr _ _ h))
theorem LLt.total : (ts us : List Tree) → LLt ts us ∨ ts = us ∨ LLt us ts
  | [], [] => Or.inr (Or.inl rfl)
  | [], _ :: _ => Or.inl (.nil _ _)
  | _ :: _, [] => Or.inr (Or.inr (.nil _ _))
  | t :: ts, u :: us => by
    rcases TLt.total t u with h | h | h
    · exact Or.inl (.head _ _ _ _ h)
    · subst h
      rcases LLt.total ts us with h | h | h
      · exact Or.inl (.tail _ _ _ h)
      · exact Or.inr (Or.inl (by rw [h]))
      · exact Or.inr (Or.inr (.tail _ _ _ h))
    · exact Or.inr (Or.inr (.head _ _ _ _ h))
end

/-! ### Any values, including floating-point numbers and arrays which contain themselves -/

def Cmp.flip : Cmp → Cmp
  | .less => .greater
  | .greater => .less
  | c => c

/-- Well-formed memory: one void, strings ordered by C26, four kinds of objects compared by address, and `<` of floating-point numbers
is not symmetric. -/
structure WF (m : Mem) : Prop where
  void : OneVoid m
  coll : ByCode m.coll
  str : ∀ a s, m.heap a = .str s → ∃ cs, Rep s cs ∧ (s.width = .w8 ∨ s.addr % 8 = 0)
  other : ∀ a ty, m.heap a = .other ty → ty = 12 ∨ ty = 18 ∨ ty = 20 ∨ ty = 22
  lt : ∀ x y, m.fl.lt x y = true → m.fl.lt y x = false

theorem compareInt_flip (a b : Int) : compareInt b a = (compareInt a b).flip := by
  unfold compareInt
  by_cases h1 : a < b
  · rw [if_neg (by omega), if_pos (by omega), if_pos h1]; rfl
  · by_cases h2 : b < a
    · rw [if_pos h2, if_neg h1, if_pos (by omega)]; rfl
    · rw [if_neg h2, if_neg (by omega), if_neg h1, if_neg (by omega)]; rfl

theorem checkRefs_flip (a b : Int) (refs : List (Int × Int)) :
    checkRefs b a (refs.map Prod.swap) = (checkRefs a b refs).map Cmp.flip := by
  induction refs with
  | nil => rfl
  | cons r refs ih =>
    obtain ⟨ra, rb⟩ := r
    rw [List.map_cons, Prod.swap, checkRefs, checkRefs]
    by_cases h1 : a = ra ∧ b = rb
    · rw [if_pos h1, if_pos ⟨h1.2, h1.1⟩]; rfl
    · rw [if_neg h1, if_neg (fun c => h1 ⟨c.2, c.1⟩)]
      by_cases h2 : a = ra ∨ b = rb ∨ a = rb ∨ b = ra
      · rw [if_pos h2, if_pos (by rcases h2 with h | h | h | h <;> simp [h]), compareInt_flip]; rfl
      · rw [if_neg h2, if_neg (by intro c; apply h2; rcases c with h | h | h | h <;> simp [h]), ih]

theorem compareElems_flip (f g : Int → Int → Option Cmp) (h : ∀ x y, g y x = (f x y).map Cmp.flip) (xs ys : List Int) :
    compareElems g ys xs = (compareElems f xs ys).map Cmp.flip := by
  induction xs generalizing ys with
  | nil => cases ys <;> rfl
  | cons x xs ih =>
    cases ys with
    | nil => rfl
    | cons y ys =>
      rw [compareElems, compareElems, h x y]
      cases f x y with
      | none => rfl
      | some c => cases c with
        | equal => exact ih ys
        | _ => rfl

theorem memcmp_flip (xs ys : List Nat) : memcmp ys xs = - memcmp xs ys := by
  induction xs generalizing ys with
  | nil => cases ys <;> simp [memcmp]
  | cons x xs ih =>
    cases ys with
    | nil => simp [memcmp]
    | cons y ys =>
      rw [memcmp, memcmp]
      by_cases h1 : x < y
      · rw [if_neg (by omega), if_pos h1, if_pos h1]; rfl
      · by_cases h2 : y < x
        · rw [if_pos h2, if_neg h1, if_pos h2]
        · rw [if_neg h2, if_neg h1, if_neg h1, if_neg h2, ih]

theorem compareBuf_flip (xs ys : List Nat) : compareBuf ys xs = (compareBuf xs ys).flip := by
  unfold compareBuf
  simp only
  rw [memcmp_flip xs ys]
  by_cases h1 : memcmp xs ys = 0
  · rw [h1]
    simp only [Int.neg_zero, ne_eq, not_true_eq_false, if_false]
    by_cases h2 : xs.length < ys.length
    · rw [if_neg (by omega), if_pos h2, if_pos h2]; rfl
    · by_cases h3 : ys.length < xs.length
      · rw [if_pos h3, if_neg h2, if_pos h3]; rfl
      · rw [if_neg h3, if_neg h2, if_neg h2, if_neg h3]; rfl
  · rw [if_pos (by omega), if_pos h1]
    by_cases h2 : memcmp xs ys > 0
    · rw [if_neg (by omega), if_pos h2]; rfl
    · rw [if_pos (by omega), if_neg h2]; rfl

theorem compareFloat_flip {m : Mem} (hm : WF m) (a b : Int) : compareFloat m b a = (compareFloat m a b).flip := by
  unfold compareFloat
  simp only
  generalize floatOf m a = x
  generalize floatOf m b = y
  rw [Bool.or_comm (m.fl.isNan y)]
  by_cases h : (m.fl.isNan x || m.fl.isNan y) = true
  · rw [if_pos h, if_pos h]; rfl
  · rw [if_neg h, if_neg h]
    by_cases h1 : m.fl.lt x y = true
    · have := hm.lt x y h1
      rw [if_neg (by simp [this]), if_pos h1, if_pos h1]; rfl
    · by_cases h2 : m.fl.lt y x = true
      · rw [if_pos h2, if_neg h1, if_pos h2]; rfl
      · rw [if_neg h2, if_neg h1, if_neg h1, if_neg h2]; rfl

theorem strCompare_flip {m : Mem} (hm : WF m) (a b : Int) (s t : Str.S) (ha : m.heap a = .str s) (hb : m.heap b = .str t) :
    ∃ r q, Str.compare m.coll s t = some r ∧ Str.compare m.coll t s = some q ∧ (r < 0 ↔ 0 < q) ∧ (0 < r ↔ q < 0) := by
  obtain ⟨cs, e1, e2⟩ := hm.str a s ha
  obtain ⟨ds, f1, f2⟩ := hm.str b t hb
  obtain ⟨r, g1, g2⟩ := C26_order_partial m.coll hm.coll s t cs ds e1 f1
    (by rcases e2 with e2 | e2; exact Or.inl e2; exact Or.inr (Or.inr (Or.inl e2)))
  obtain ⟨q, k1, k2⟩ := C26_order_partial m.coll hm.coll t s ds cs f1 e1
    (by rcases f2 with f2 | f2; exact Or.inl f2; exact Or.inr (Or.inr (Or.inl f2)))
  exact ⟨r, q, g1, k1, by rw [g2.lt, k2.gt], by rw [g2.gt, k2.lt]⟩

theorem compare_flip {m : Mem} (hm : WF m) (fuel : Nat) (refs : List (Int × Int)) (a b : Int) :
    compare m fuel (refs.map Prod.swap) b a = (compare m fuel refs a b).map Cmp.flip := by
  induction fuel generalizing refs a b with
  | zero => exact step hm 0 (fun _ h => absurd h (by omega)) refs a b
  | succ fuel ih => exact step hm (fuel + 1) (fun k hk refs a b => by rw [show k = fuel by omega]; exact ih refs a b) refs a b
where
  step {m : Mem} (hm : WF m) (fuel : Nat)
      (ih : ∀ k, k + 1 = fuel → ∀ refs a b, compare m k (refs.map Prod.swap) b a = (compare m k refs a b).map Cmp.flip)
      (refs : List (Int × Int)) (a b : Int) : compare m fuel (refs.map Prod.swap) b a = (compare m fuel refs a b).map Cmp.flip := by
    conv => lhs; unfold compare
    conv => rhs; unfold compare
    simp only
    by_cases hab : a = b
    · subst hab
      simp only [if_true]
      by_cases h4 : objType m a = 4
      · rw [if_pos h4]
        cases m.fl.isNan (floatOf m a) <;> rfl
      · rw [if_neg h4]; rfl
    · rw [if_neg (fun c => hab c.symm), if_neg hab]
      by_cases ht : objType m a = objType m b ∨ (objType m a ≤ 4 ∧ objType m b ≤ 4)
      · rw [if_pos (by omega), if_pos ht]
        by_cases h4 : objType m a ≤ 4
        · rw [if_pos (by omega), if_pos h4]
          by_cases hf : objType m a = 4 ∨ objType m b = 4
          · rw [if_pos (by omega), if_pos hf, compareFloat_flip hm]; rfl
          · rw [if_neg (by omega), if_neg hf]
            by_cases h0 : objType m a = 0 ∧ objType m b = 0
            · rw [if_pos (by omega), if_pos h0, compareInt_flip]; rfl
            · rw [if_neg (by omega), if_neg h0, compareInt_flip]; rfl
        · rw [if_neg (by omega), if_neg h4]
          cases ha : m.heap a with
          | str s =>
            cases hb : m.heap b with
            | str t =>
              obtain ⟨r, q, e1, e2, e3, e4⟩ := strCompare_flip hm a b s t ha hb
              simp only
              rw [e1, e2]
              simp only [Option.map_some]
              by_cases h1 : r < 0
              · rw [if_neg (by omega), if_pos (by omega), if_pos h1]; rfl
              · by_cases h2 : 0 < r
                · rw [if_pos (by omega), if_neg h1, if_pos (by omega)]; rfl
                · rw [if_neg (by omega), if_neg (by omega), if_neg h1, if_neg (by omega)]; rfl
            | _ => rfl
          | arr xs =>
            cases hb : m.heap b with
            | arr ys =>
              simp only
              cases fuel with
              | zero => rfl
              | succ fuel =>
                simp only
                unfold compareArray
                rw [checkRefs_flip]
                cases checkRefs a b refs with
                | some c => rfl
                | none =>
                  simp only [Option.map_none]
                  rw [compareElems_flip (compare m fuel ((a, b) :: refs)) (compare m fuel ((b, a) :: refs.map Prod.swap))
                    (fun x y => ih fuel rfl ((a, b) :: refs) x y)]
                  cases compareElems (compare m fuel ((a, b) :: refs)) xs ys with
                  | none => rfl
                  | some c =>
                    cases c with
                    | equal =>
                      simp only [Option.map_some, Cmp.flip]
                      by_cases h2 : xs.length < ys.length
                      · rw [if_neg (by omega), if_pos h2, if_pos h2]
                      · by_cases h3 : ys.length < xs.length
                        · rw [if_pos h3, if_neg h2, if_pos h3]
                        · rw [if_neg h3, if_neg h2, if_neg h2, if_neg h3]
                    | _ => rfl
            | _ => rfl
          | buf xs =>
            cases hb : m.heap b with
            | buf ys => simp only [Option.map_some]; rw [compareBuf_flip]
            | _ => rfl
          | bool x =>
            cases hb : m.heap b with
            | bool y => simp only [Option.map_some]; rw [compareInt_flip]
            | _ => rfl
          | other x =>
            cases hb : m.heap b with
            | other y => simp only [Option.map_some]; rw [compareInt_flip]
            | _ => rfl
          | _ => cases hb : m.heap b <;> rfl
      · rw [if_neg (by omega), if_neg ht]
        by_cases hlt : objType m a < objType m b
        · rw [if_neg (by omega), if_pos hlt]; rfl
        · rw [if_pos (by omega), if_neg hlt]; rfl

/-! ### The comparison ends -/

theorem checkRefs_none_not_mem {a b : Int} {refs : List (Int × Int)} (h : checkRefs a b refs = none) : a ∉ refs.map (·.1) := by
  induction refs with
  | nil => simp
  | cons r refs ih =>
    obtain ⟨ra, rb⟩ := r
    rw [checkRefs] at h
    split at h
    · exact absurd h (by simp)
    · split at h
      · exact absurd h (by simp)
      · rename_i h1 h2
        rw [List.map_cons, List.mem_cons]
        rintro (c | c)
        · exact h2 (Or.inl c)
        · exact ih h c

theorem nodup_sub_length {l live : List Int} (h : l.Nodup) (hs : ∀ x ∈ l, x ∈ live) : l.length ≤ live.length := by
  induction l generalizing live with
  | nil => simp
  | cons x l ih =>
    rw [List.nodup_cons] at h
    have hx := hs x (by simp)
    have := ih h.2 (live := live.erase x) (by
      intro y hy
      rw [List.mem_erase_of_ne (by rintro rfl; exact h.1 hy)]
      exact hs y (by simp [hy]))
    rw [List.length_erase_of_mem hx] at this
    have := List.length_pos_of_mem hx
    simp only [List.length_cons]; omega

theorem compareElems_some {f : Int → Int → Option Cmp} (h : ∀ x y, f x y ≠ none) (xs ys : List Int) : compareElems f xs ys ≠ none := by
  induction xs generalizing ys with
  | nil => cases ys <;> simp [compareElems]
  | cons x xs ih =>
    cases ys with
    | nil => simp [compareElems]
    | cons y ys =>
      rw [compareElems]
      cases e : f x y with
      | none => exact absurd e (h x y)
      | some c => cases c with
        | equal => exact ih ys
        | _ => simp

theorem compare_ends {m : Mem} (hm : WF m) (live : List Int) (hl : ∀ a es, a % 2 ≠ 0 → m.heap a = .arr es → a ∈ live) (fuel : Nat)
    (refs : List (Int × Int)) (hn : (refs.map (·.1)).Nodup) (hs : ∀ r ∈ refs, r.1 ∈ live) (hf : live.length < fuel + refs.length) (a b : Int) :
    compare m fuel refs a b ≠ none := by
  induction fuel generalizing refs a b with
  | zero =>
    have := nodup_sub_length hn (live := live) (by
      intro x hx
      obtain ⟨r, hr, rfl⟩ := List.mem_map.mp hx
      exact hs r hr)
    rw [List.length_map] at this
    omega
  | succ fuel ih =>
    unfold compare
    simp only
    by_cases hab : a = b
    · rw [if_pos hab]; split <;> simp
    · rw [if_neg hab]
      by_cases ht : objType m a = objType m b ∨ (objType m a ≤ 4 ∧ objType m b ≤ 4)
      · rw [if_pos ht]
        by_cases h4 : objType m a ≤ 4
        · rw [if_pos h4]; split
          · simp
          · split <;> simp
        · rw [if_neg h4]
          have hodd : a % 2 ≠ 0 ∧ b % 2 ≠ 0 := by
            have h5 : ¬ objType m b ≤ 4 := by omega
            unfold objType at h4 h5
            constructor
            · intro c; rw [if_pos c] at h4; omega
            · intro c; rw [if_pos c] at h5; omega
          have hty : (m.heap a).type = (m.heap b).type ∧ 4 < (m.heap a).type := by
            unfold objType at h4 ht
            rw [if_neg hodd.1] at h4 ht
            rw [if_neg hodd.2] at ht
            omega
          have ho := hm.other a
          have ho' := hm.other b
          cases ha : m.heap a with
          | str s =>
            cases hb : m.heap b with
            | str t =>
              obtain ⟨r, q, e1, _⟩ := strCompare_flip hm a b s t ha hb
              simp only
              rw [e1]; simp
            | other ty => rw [ha, hb] at hty; have := ho' ty hb; simp [Obj.type] at hty; omega
            | _ => rw [ha, hb] at hty; simp [Obj.type] at hty
          | arr xs =>
            cases hb : m.heap b with
            | arr ys =>
              simp only
              unfold compareArray
              cases hc : checkRefs a b refs with
              | some c => simp
              | none =>
                simp only
                have hn' := checkRefs_none_not_mem hc
                have := compareElems_some (f := compare m fuel ((a, b) :: refs)) (fun x y => ih ((a, b) :: refs)
                  (by rw [List.map_cons, List.nodup_cons]; exact ⟨hn', hn⟩)
                  (by intro r hr
                      rcases List.mem_cons.mp hr with rfl | hr
                      · exact hl a xs hodd.1 ha
                      · exact hs r hr)
                  (by rw [List.length_cons]; omega) x y) xs ys
                cases he : compareElems (compare m fuel ((a, b) :: refs)) xs ys with
                | none => exact absurd he this
                | some c => cases c <;> simp
            | other ty => rw [ha, hb] at hty; have := ho' ty hb; simp [Obj.type] at hty; omega
            | _ => rw [ha, hb] at hty; simp [Obj.type] at hty
          | void =>
            cases hb : m.heap b with
            | void => exact absurd (hm.void a b ha hb) hab
            | other ty => rw [ha, hb] at hty; have := ho' ty hb; simp [Obj.type] at hty; omega
            | _ => rw [ha, hb] at hty; simp [Obj.type] at hty
          | other ty =>
            have := ho ty ha
            cases hb : m.heap b with
            | other => simp
            | _ => rw [ha, hb] at hty; simp [Obj.type] at hty; omega
          | integer => rw [ha] at hty; simp [Obj.type] at hty
          | float => rw [ha] at hty; simp [Obj.type] at hty
          | bool x =>
            cases hb : m.heap b with
            | bool => simp
            | other ty => rw [ha, hb] at hty; have := ho' ty hb; simp [Obj.type] at hty; omega
            | _ => rw [ha, hb] at hty; simp [Obj.type] at hty
          | buf x =>
            cases hb : m.heap b with
            | buf => simp
            | other ty => rw [ha, hb] at hty; have := ho' ty hb; simp [Obj.type] at hty; omega
            | _ => rw [ha, hb] at hty; simp [Obj.type] at hty
      · rw [if_neg ht]; simp

end Verif.Utils
