import Verif.Base.UnpackLemmas

/-
C40: `unpack` never reads outside of the buffer.  A read outside of it is the outcome `bad`.
-/
set_option linter.constructorNameAsVariable false

namespace Verif.Props

open Verif.Base.Pack
open Verif.Buf (B Env Rep)

/-- The full claim. -/
def C40_full : Prop := ∀ (fl : Floats) (ue : UEnv) (b : B) (l : List Nat) (fmt : List Nat) (pos : Option Int), Rep b l → (∀ x ∈ l, x < 256) →
  unpack fl ue b fmt pos ≠ .bad

/-- No item of a format, which may go on in any way, has a total size close to 2^32. -/
def NoOverflow (limit : Nat) (fmt : List Nat) : Prop := ∀ toks f n k t rest, fmt = t ++ rest → ToksText (toks ++ [.item f (some n) k]) t rest → n * k < limit

theorem startPos_le (b : B) (pos : Option Int) (h : b.size < 2147483648) : startPos b pos ≤ b.size := by
  unfold startPos
  cases pos with
  | none => exact Nat.zero_le _
  | some p =>
    simp only []
    rw [if_pos h]
    generalize (if p < 0 then p + (b.size : Int) else p) = q
    split
    · omega
    · split <;> omega

/-- `unpack` stays inside of the buffer for every format string, position and contents, and ends inside of it.

Partial: leaves out formats in which the size of an item times its count, plus the size of the buffer, does not fit in 32 bits,
buffers with external storage and buffers of 2^31 bytes or more; all three are violations. -/
theorem C40_partial (fl : Floats) (ue : UEnv) (b : B) (l : List Nat) (hr : Rep b l) (hb : ∀ x ∈ l, x < 256) (hx : b.ext = false)
    (hl : l.length < 2147483648) (fmt : List Nat) (hf : NoOverflow (4294967296 - l.length) fmt) (pos : Option Int) :
    unpack fl ue b fmt pos ≠ .bad ∧ ∀ st, unpack fl ue b fmt pos = .ok st → st.idx ≤ b.size := by
  unfold unpack
  have hs := hr.size
  have key := process_safe (unpackItem fl ue b) (fun st : USt => st.idx ≤ l.length)
    (fun tok => ∀ f n k, tok = .item f (some n) k → n * k < 4294967296 - l.length) fmt
    (by
      rintro toks tok t rest e1 e2 f n k rfl
      exact hf toks f n k t rest e1 e2)
    (by
      intro st f size n big hg hsm
      exact unpackItem_safe fl ue b l hr hx hb hl st hg ⟨f, size, n, big⟩ (by rintro m rfl; exact hsm f m n rfl))
    (fmt.length + 1) [] [] fmt false ⟨startPos b pos, [], 0⟩ rfl (.nil _) (by have := startPos_le b pos (by omega); show startPos b pos ≤ _; omega) (by omega)
  rw [hs]
  exact key

/-! ### Violations -/

def anyFloats : Floats := ⟨fun _ => 0, fun _ => none, fun _ => 0, fun _ => 0⟩

def anyEnv : UEnv := ⟨fun _ => true, 8, fun _ => false⟩

/-- `buffer().unpack("536870912u8")`: the size times the count is 0 in 32-bit arithmetic, so the check passes and bytes are read from an
empty buffer. -/
theorem C40_violated : ¬ C40_full := by
  intro h
  exact h anyFloats anyEnv ⟨0, false, false, none⟩ [] [53, 51, 54, 56, 55, 48, 57, 49, 50, 117, 56] none
    ⟨rfl, Or.inl ⟨rfl, rfl⟩, by decide, by decide⟩ (by simp) (by decide +kernel)

/-- `unpack("8x4294967289xu1")` of `<0, 1, ..., 8>`: the second count wraps around, so that the position moves back from 8 to 1, and the
format is accepted. -/
theorem C40_backwards_violated : unpack anyFloats anyEnv ⟨9, false, false, some (List.range 64)⟩
    [56, 120, 52, 50, 57, 52, 57, 54, 55, 50, 56, 57, 120, 117, 49] none = .ok ⟨2, [.int 1], 1⟩ := by decide +kernel

/-- A string from a buffer with external storage: the wrong field is read (core/kos_string.c:343-380), even for the format "s". -/
theorem C40_external_violated : ¬ ∀ (fl : Floats) (ue : UEnv) (b : B) (l : List Nat), Rep b l → (∀ x ∈ l, x < 256) → l.length < 2147483648 →
    unpack fl ue b [115] none ≠ .bad := by
  intro h
  exact h anyFloats anyEnv ⟨1, false, true, some [65]⟩ [65] ⟨rfl, Or.inr ⟨[], rfl⟩, by decide, by simp⟩ (by decide) (by decide) (by decide +kernel)

/-- In a buffer of more than 2^31 bytes, the offset of a byte sequence becomes negative: the format "2147483648xb1". -/
theorem C40_large_violated (d : List Nat) : unpack anyFloats anyEnv ⟨2147483649, false, false, some d⟩
    [50, 49, 52, 55, 52, 56, 51, 54, 52, 56, 120, 98, 49] none = .bad := by
  simp [unpack, process, skipSpaces, skipLoop, isSpace, countAndChar, getCount, countLoop, isDigit, act, sized, unpackItem, unpackSized, startPos,
    unpackLoop, unpackOne]

/-! ### Short formats -/

theorem decimal_lt (ds : List Nat) (h : ∀ d ∈ ds, 48 ≤ d ∧ d ≤ 57) : decimal ds < 10 ^ ds.length := by
  have gen : ∀ (ds : List Nat) (a m : Nat), (∀ d ∈ ds, 48 ≤ d ∧ d ≤ 57) → a < 10 ^ m →
      ds.foldl (fun n d => n * 10 + (d - 48)) a < 10 ^ (m + ds.length) := by
    intro ds
    induction ds with
    | nil => intro a m _ ha; exact ha
    | cons d ds ih =>
      intro a m hd ha
      have hd0 := hd d (by simp)
      have := ih (a * 10 + (d - 48)) (m + 1) (fun x hx => hd x (by simp [hx])) (by rw [Nat.pow_succ]; omega)
      rw [List.length_cons, show m + (ds.length + 1) = m + 1 + ds.length by omega]
      exact this
  have := gen ds 0 0 h (by simp)
  rwa [Nat.zero_add] at this

theorem toksText_last {toks : List Tok} {tok : Tok} {t rest : List Nat} (h : ToksText (toks ++ [tok]) t rest) :
    ∃ t0 t1, t = t0 ++ t1 ∧ TokText tok t1 rest := by
  induction toks generalizing t with
  | nil =>
    cases h with
    | cons _ _ t1 ts _ h1 h2 => cases h2; exact ⟨[], t1, by simp, by simpa using h1⟩
  | cons a toks ih =>
    cases h with
    | cons _ _ t1 ts _ h1 h2 =>
      obtain ⟨t0, t2, rfl, e⟩ := ih h2
      exact ⟨t1 ++ t0, t2, by simp, e⟩

/-- A format of at most ten characters has no large item. -/
theorem noOverflow_short (fmt : List Nat) (h : fmt.length ≤ 10) : NoOverflow 2147483648 fmt := by
  intro toks f n k t rest e1 e2
  obtain ⟨t0, t1, rfl, e3⟩ := toksText_last e2
  have hlen : t1.length ≤ 10 := by rw [e1] at h; simp only [List.length_append] at h; omega
  cases e3 with
  | item _ _ _ sp cl body _ _ hc hb =>
    simp only [List.length_append] at hlen
    have hk : k < 10 ^ cl.length ∨ (k = 1 ∧ cl.length = 0) := by
      rcases hc with ⟨rfl, rfl⟩ | ⟨ds, sp', rfl, ⟨_, hd, rfl, _⟩, _⟩
      · exact Or.inr ⟨rfl, rfl⟩
      · left
        refine Nat.lt_of_lt_of_le (decimal_lt ds hd) (Nat.pow_le_pow_right (by decide) ?_)
        rw [List.length_append]; omega
    have hk' : k ≤ 10 ^ cl.length := by
      rcases hk with h | ⟨rfl, h⟩
      · omega
      · rw [h]; simp
    have hn : n ≤ 10 ^ (body.length - 1) := by
      cases hb with
      | pad => simp
      | sized _ _ ds _ _ hnum _ =>
        obtain ⟨_, hd, rfl, _⟩ := hnum
        have := decimal_lt ds hd
        simp only [List.length_cons, Nat.add_sub_cancel]
        omega
    have hpos : 1 ≤ body.length := by cases hb <;> simp
    have : n * k ≤ 10 ^ (body.length - 1 + cl.length) := by
      rw [Nat.pow_add]
      exact Nat.mul_le_mul hn hk'
    have h2 : 10 ^ (body.length - 1 + cl.length) ≤ 10 ^ 9 := Nat.pow_le_pow_right (by decide) (by omega)
    omega

/-- Formats of at most ten characters never read outside of an ordinary buffer, for any contents and position. -/
theorem C40_short (fl : Floats) (ue : UEnv) (b : B) (l : List Nat) (hr : Rep b l) (hb : ∀ x ∈ l, x < 256) (hx : b.ext = false)
    (hl : l.length < 2147483648) (fmt : List Nat) (hf : fmt.length ≤ 10) (pos : Option Int) : unpack fl ue b fmt pos ≠ .bad :=
  (C40_partial fl ue b l hr hb hx hl fmt (fun toks f n k t rest e1 e2 => by have := noOverflow_short fmt hf toks f n k t rest e1 e2; omega) pos).1

/-- "2x b2 > i4": skips two bytes, and reads a byte sequence and a number up to the end. -/
example : unpack anyFloats anyEnv ⟨8, false, false, some (List.range 64)⟩ [50, 120, 32, 98, 50, 32, 62, 32, 105, 52] none =
    .ok ⟨8, [.buf [2, 3], .int 67438087], 2⟩ := by decide +kernel

end Verif.Props
