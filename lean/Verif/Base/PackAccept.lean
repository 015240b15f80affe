import Verif.Base.UnpackLemmas

/-
What `pack` and `unpack` accept.
-/
set_option linter.constructorNameAsVariable false

namespace Verif.Base.Pack

open Verif.Buf (B Env)
open Verif.Utf8 (Kind)

/-- Sizes which a format character may have. -/
def GoodSize (f : Fmt) (size : Option Nat) : Prop :=
  (f = .u ∨ f = .i → size = some 1 ∨ size = some 2 ∨ size = some 4 ∨ size = some 8) ∧ (f = .f → size = some 4 ∨ size = some 8)

/-- Values which a format character may have. -/
def Suits (fl : Floats) : Fmt → Val → Prop
  | .u, v | .i, v => ∃ k, v = .int k ∨ ∃ x, v = .float x ∧ fl.toInt x = some k
  | .f, v => ∃ x, v = .float x ∨ ∃ k, v = .int k ∧ fl.ofInt k = x
  | .b, v => v = .self ∨ ∃ bytes, v = .buf bytes
  | .s, v => ∃ k codes, v = .str k codes
  | .x, _ => False

/-- There are enough values for the format, and all are of the right type. -/
inductive Taken (fl : Floats) : List Tok → List Val → Prop
  | nil (vs : List Val) : Taken fl [] vs
  | order (big : Bool) (toks : List Tok) (vs : List Val) : Taken fl toks vs → Taken fl (.order big :: toks) vs
  | pad (size : Option Nat) (n : Nat) (toks : List Tok) (vs : List Val) : Taken fl toks vs → Taken fl (.item .x size n :: toks) vs
  | item (f : Fmt) (size : Option Nat) (toks : List Tok) (vs rest : List Val) : f ≠ .x → GoodSize f size → (∀ v ∈ vs, Suits fl f v) →
      Taken fl toks rest → Taken fl (.item f size vs.length :: toks) (vs ++ rest)

theorem packOne_accepts (fl : Floats) (env : Nat → Env) (f : Fmt) (hf : f ≠ .x) (size : Option Nat) (big : Bool) (st st' : PSt) (dst : Option Nat) (v : Val)
    (h : packOne fl env f size big st dst v = .ok st') : Suits fl f v ∧ st'.idx = st.idx := by
  cases f with
  | x => exact absurd rfl hf
  | u | i =>
    cases size with
    | none => simp [packOne] at h
    | some n =>
      simp only [packOne] at h
      cases v with
      | int k =>
        simp only [intArg] at h
        split at h
        · simp at h
        · simp only [Out.ok.injEq] at h; subst h; exact ⟨⟨k, Or.inl rfl⟩, rfl⟩
      | float x =>
        simp only [intArg] at h
        cases hx : fl.toInt x with
        | none => rw [hx] at h; simp at h
        | some k =>
          rw [hx] at h
          simp only at h
          split at h
          · simp at h
          · simp only [Out.ok.injEq] at h; subst h; exact ⟨⟨k, Or.inr ⟨x, rfl, hx⟩⟩, rfl⟩
      | _ => simp [intArg] at h
  | f =>
    cases size with
    | none => simp [packOne] at h
    | some n =>
      simp only [packOne] at h
      cases v with
      | int k =>
        simp only [floatArg] at h
        split at h
        · simp at h
        · simp only [Out.ok.injEq] at h; subst h; exact ⟨⟨_, Or.inr ⟨k, rfl, rfl⟩⟩, rfl⟩
      | float x =>
        simp only [floatArg] at h
        split at h
        · simp at h
        · simp only [Out.ok.injEq] at h; subst h; exact ⟨⟨x, Or.inl rfl⟩, rfl⟩
      | _ => simp [floatArg] at h
  | b =>
    cases size with
    | none => simp [packOne] at h
    | some n =>
      simp only [packOne] at h
      cases v with
      | buf src =>
        simp only [] at h
        split at h
        · simp at h
        · simp only [Out.ok.injEq] at h; subst h; exact ⟨Or.inr ⟨src, rfl⟩, rfl⟩
      | self =>
        simp only [] at h
        split at h
        · simp at h
        · split at h
          · simp at h
          · simp only [Out.ok.injEq] at h; subst h; exact ⟨Or.inl rfl, rfl⟩
      | _ => simp at h
  | s =>
    simp only [packOne] at h
    cases v with
    | str k codes =>
      simp only [] at h
      cases hs : strBytes k codes with
      | none => rw [hs] at h; simp at h
      | some bytes =>
        rw [hs] at h
        simp only [] at h
        split at h
        · simp at h
        · cases size with
          | none =>
            simp only [] at h
            split at h
            · split at h
              · simp at h
              · simp only [Out.ok.injEq] at h; subst h; exact ⟨⟨k, codes, rfl⟩, rfl⟩
            · simp at h
            · simp at h
          | some n =>
            simp only [] at h
            split at h
            · simp at h
            · simp only [Out.ok.injEq] at h; subst h; exact ⟨⟨k, codes, rfl⟩, rfl⟩
    | _ => simp at h

theorem packLoop_accepts (fl : Floats) (env : Nat → Env) (data : List Val) (f : Fmt) (hf : f ≠ .x) (size : Option Nat) (big : Bool) (k : Nat) :
    ∀ (dst : Option Nat) (st st' : PSt), packLoop fl env data f size big k dst st = .ok st' →
      ∃ vs, vs.length = k ∧ data.drop st.idx = vs ++ data.drop st'.idx ∧ ∀ v ∈ vs, Suits fl f v := by
  induction k with
  | zero =>
    intro dst st st' h
    simp only [packLoop, Out.ok.injEq] at h
    subst h
    exact ⟨[], rfl, rfl, by simp⟩
  | succ k ih =>
    intro dst st st' h
    rw [packLoop] at h
    cases hd : data[st.idx]? with
    | none => rw [hd] at h; simp at h
    | some v =>
      rw [hd] at h
      simp only at h
      cases ho : packOne fl env f size big { st with idx := st.idx + 1 } dst v with
      | bad => rw [ho] at h; simp at h
      | raise _ => rw [ho] at h; simp at h
      | ok st1 =>
        rw [ho] at h
        simp only at h
        obtain ⟨e1, e2⟩ := packOne_accepts fl env f hf size big _ st1 dst v ho
        obtain ⟨vs, f1, f2, f3⟩ := ih _ st1 st' h
        refine ⟨v :: vs, by simp [f1], ?_, ?_⟩
        · rw [e2] at f2
          have f2 : data.drop (st.idx + 1) = vs ++ data.drop st'.idx := f2
          obtain ⟨hlt, hv⟩ := List.getElem?_eq_some_iff.mp hd
          rw [List.drop_eq_getElem_cons hlt, hv, f2]; rfl
        · intro w hw
          rcases List.mem_cons.mp hw with rfl | hw
          · exact e1
          · exact f3 w hw

theorem packValues_accepts (fl : Floats) (env : Nat → Env) (data : List Val) (st st' : PSt) (dst : Option Nat) (f : Fmt) (size : Option Nat) (k : Nat)
    (big : Bool) (h : packValues fl env data st dst ⟨f, size, k, big⟩ = .ok st') :
    (f = .x ∧ st'.idx = st.idx) ∨
    (f ≠ .x ∧ GoodSize f size ∧ ∃ vs, vs.length = k ∧ data.drop st.idx = vs ++ data.drop st'.idx ∧ ∀ v ∈ vs, Suits fl f v) := by
  unfold packValues at h
  by_cases hf : f = .x
  · subst hf
    left
    simp only [] at h
    split at h
    · split at h
      · simp at h
      · simp only [Out.ok.injEq] at h; subst h; exact ⟨rfl, rfl⟩
    · simp only [Out.ok.injEq] at h; subst h; exact ⟨rfl, rfl⟩
  · right
    refine ⟨hf, ?_⟩
    have h' : (if (f = .u ∨ f = .i) ∧ size ≠ some 1 ∧ size ≠ some 2 ∧ size ≠ some 4 ∧ size ≠ some 8 then Out.raise st
        else if f = .f ∧ size ≠ some 4 ∧ size ≠ some 8 then Out.raise st
        else if (st.idx + k) % 4294967296 > data.length then Out.raise st
        else packLoop fl env data f size big k dst st) = .ok st' := by
      cases f with
      | x => exact absurd rfl hf
      | _ => exact h
    by_cases h1 : (f = .u ∨ f = .i) ∧ size ≠ some 1 ∧ size ≠ some 2 ∧ size ≠ some 4 ∧ size ≠ some 8
    · rw [if_pos h1] at h'; simp at h'
    · rw [if_neg h1] at h'
      by_cases h2 : f = .f ∧ size ≠ some 4 ∧ size ≠ some 8
      · rw [if_pos h2] at h'; simp at h'
      · rw [if_neg h2] at h'
        by_cases h3 : (st.idx + k) % 4294967296 > data.length
        · rw [if_pos h3] at h'; simp at h'
        · rw [if_neg h3] at h'
          refine ⟨⟨?_, ?_⟩, packLoop_accepts fl env data f hf size big k dst st st' h'⟩
          · intro hu
            apply Classical.byContradiction
            intro hn
            exact h1 ⟨hu, fun e => hn (Or.inl e), fun e => hn (Or.inr (Or.inl e)), fun e => hn (Or.inr (Or.inr (Or.inl e))),
              fun e => hn (Or.inr (Or.inr (Or.inr e)))⟩
          · intro hu
            apply Classical.byContradiction
            intro hn
            exact h2 ⟨hu, fun e => hn (Or.inl e), fun e => hn (Or.inr e)⟩

theorem packItem_accepts (fl : Floats) (env : Nat → Env) (data : List Val) (st st' : PSt) (f : Fmt) (size : Option Nat) (k : Nat) (big : Bool)
    (h : packItem fl env data st ⟨f, size, k, big⟩ = .ok st') :
    (f = .x ∧ st'.idx = st.idx) ∨
    (f ≠ .x ∧ GoodSize f size ∧ ∃ vs, vs.length = k ∧ data.drop st.idx = vs ++ data.drop st'.idx ∧ ∀ v ∈ vs, Suits fl f v) := by
  cases size with
  | none => simp only [packItem] at h; exact packValues_accepts fl env data st st' none f none k big h
  | some n =>
    simp only [packItem] at h
    split at h
    · split at h
      · next off b _ => exact packValues_accepts fl env data { st with buf := b, t := st.t + 1 } st' (some off) f (some n) k big h
      · simp at h
      · simp at h
    · exact packValues_accepts fl env data st st' none f (some n) k big h

theorem run_accepts (fl : Floats) (env : Nat → Env) (data : List Val) (toks : List Tok) : ∀ (big : Bool) (st st' : PSt),
    runToks (packItem fl env data) big toks st = .ok st' → Taken fl toks (data.drop st.idx) := by
  induction toks with
  | nil => intro big st st' _; exact .nil _
  | cons tok toks ih =>
    intro big st st' h
    cases tok with
    | order big' => exact .order big' toks _ (ih big' st st' h)
    | item f size k =>
      simp only [runToks] at h
      cases ho : packItem fl env data st ⟨f, size, k, big⟩ with
      | bad => rw [ho] at h; simp at h
      | raise _ => rw [ho] at h; simp at h
      | ok st1 =>
        rw [ho] at h
        simp only at h
        have hrec := ih big st1 st' h
        rcases packItem_accepts fl env data st st1 f size k big ho with ⟨rfl, e⟩ | ⟨hf, hg, vs, rfl, e2, e3⟩
        · rw [e] at hrec; exact .pad size k toks _ hrec
        · rw [e2]; exact .item f size toks vs _ hf hg e3 hrec

/-! ### unpack -/

/-- The sizes of the items are allowed, and at least `n` bytes are left after them.  A string without a size takes all. -/
def Room : List Tok → Nat → Prop
  | [], _ => True
  | .order _ :: toks, n => Room toks n
  | .item _ none k :: toks, _ => k = 1 ∧ Room toks 0
  | .item f (some m) k :: toks, n => m * k ≤ n ∧ (k ≠ 0 → GoodSize f (some m)) ∧ Room toks (n - m * k)

theorem unpackLoop_accepts (fl : Floats) (ue : UEnv) (b : B) (f : Fmt) (size : Nat) (big : Bool) (k : Nat) : ∀ (st st' : USt),
    st.idx + size * k < 4294967296 → unpackLoop fl ue b f size big k st = .ok st' → st'.idx = st.idx + size * k := by
  induction k with
  | zero => intro st st' _ h; simp only [unpackLoop, Out.ok.injEq] at h; subst h; simp
  | succ k ih =>
    intro st st' hs h
    rw [Nat.mul_succ] at hs ⊢
    rw [unpackLoop] at h
    split at h
    · simp at h
    · simp at h
    · split at h
      · have hm : (st.idx + size) % 4294967296 = st.idx + size := Nat.mod_eq_of_lt (by omega)
        have := ih _ st' (by show (st.idx + size) % 4294967296 + _ < _; omega) h
        rw [this]
        show (st.idx + size) % 4294967296 + _ = _
        omega
      · simp at h

theorem unpackSized_accepts (fl : Floats) (ue : UEnv) (b : B) (st st' : USt) (f : Fmt) (sz : Option Nat) (k : Nat) (big : Bool) (size : Nat)
    (hs : st.idx + size * k < 4294967296) (h : unpackSized fl ue b st ⟨f, sz, k, big⟩ size = .ok st') :
    st'.idx = st.idx + size * k ∧ st.idx + size * k ≤ b.size ∧ (k ≠ 0 → GoodSize f (some size)) := by
  unfold unpackSized at h
  simp only [] at h
  rw [Nat.mod_eq_of_lt (show size * k < 4294967296 by omega), Nat.mod_eq_of_lt hs] at h
  by_cases h1 : st.idx + size * k > b.size
  · rw [if_pos h1] at h; simp at h
  · rw [if_neg h1] at h
    by_cases hk : k = 0
    · rw [if_pos hk] at h
      simp only [Out.ok.injEq] at h
      subst h
      subst hk
      exact ⟨by simp, by omega, fun h => absurd rfl h⟩
    · rw [if_neg hk] at h
      by_cases hf : f = .x
      · subst hf
        simp only [Out.ok.injEq] at h
        subst h
        exact ⟨rfl, by omega, fun _ => ⟨by simp, by simp⟩⟩
      · have h' : (if (f = .f ∧ size ≠ 4 ∧ size ≠ 8) ∨ ((f = .f ∨ f = .i ∨ f = .u) ∧ size ≠ 1 ∧ size ≠ 2 ∧ size ≠ 4 ∧ size ≠ 8) then Out.raise st
            else unpackLoop fl ue b f size big k st) = .ok st' := by
          cases f with
          | x => exact absurd rfl hf
          | _ => exact h
        by_cases h2 : (f = .f ∧ size ≠ 4 ∧ size ≠ 8) ∨ ((f = .f ∨ f = .i ∨ f = .u) ∧ size ≠ 1 ∧ size ≠ 2 ∧ size ≠ 4 ∧ size ≠ 8)
        · rw [if_pos h2] at h'; simp at h'
        · rw [if_neg h2] at h'
          refine ⟨unpackLoop_accepts fl ue b f size big k st st' hs h', by omega, fun _ => ⟨?_, ?_⟩⟩
          · intro hu
            apply Classical.byContradiction
            intro hn
            refine h2 (Or.inr ⟨by rcases hu with rfl | rfl <;> simp, ?_, ?_, ?_, ?_⟩) <;> (rintro rfl; simp at hn)
          · intro hu
            apply Classical.byContradiction
            intro hn
            refine h2 (Or.inl ⟨hu, ?_, ?_⟩) <;> (rintro rfl; simp at hn)

theorem run_unpack_accepts (fl : Floats) (ue : UEnv) (b : B) (hb : b.size < 2147483648) (toks : List Tok) : ∀ (big : Bool) (st st' : USt),
    st.idx ≤ b.size → (∀ f n k, .item f (some n) k ∈ toks → n * k < 2147483648) →
    runToks (unpackItem fl ue b) big toks st = .ok st' → Room toks (b.size - st.idx) := by
  induction toks with
  | nil => intro big st st' _ _ _; trivial
  | cons tok toks ih =>
    intro big st st' hi hs h
    have hs' : ∀ f n k, .item f (some n) k ∈ toks → n * k < 2147483648 := fun f n k hm => hs f n k (by simp [hm])
    cases tok with
    | order big' => exact ih big' st st' hi hs' h
    | item f size k =>
      simp only [runToks] at h
      cases ho : unpackItem fl ue b st ⟨f, size, k, big⟩ with
      | bad => rw [ho] at h; simp at h
      | raise _ => rw [ho] at h; simp at h
      | ok st1 =>
        rw [ho] at h
        simp only at h
        cases size with
        | none =>
          simp only [unpackItem] at ho
          by_cases hk : k = 1
          · rw [if_neg (by omega)] at ho
            have e : (b.size + 4294967296 - st.idx) % 4294967296 = b.size - st.idx := by omega
            rw [e, hk] at ho
            obtain ⟨e1, e2, _⟩ := unpackSized_accepts fl ue b st st1 f none 1 big _ (by omega) ho
            have := ih big st1 st' (by omega) hs' h
            refine ⟨hk, ?_⟩
            have e0 : b.size - st1.idx = 0 := by omega
            rw [e0] at this
            exact this
          · rw [if_pos hk] at ho; simp at ho
        | some n =>
          simp only [unpackItem] at ho
          have hnk := hs f n k (by simp)
          obtain ⟨e1, e2, e3⟩ := unpackSized_accepts fl ue b st st1 f (some n) k big n (by omega) ho
          have := ih big st1 st' (by omega) hs' h
          refine ⟨by omega, e3, ?_⟩
          have e0 : b.size - st1.idx = b.size - st.idx - n * k := by omega
          rw [e0] at this
          exact this

end Verif.Base.Pack
