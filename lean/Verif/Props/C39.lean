import Verif.Base.PackAccept

/-
C39: `unpack` inverts `pack`.  The specification of formats is in Base/PackFormat.lean, that of values and bytes in Base/PackSpec.lean.
-/
set_option linter.constructorNameAsVariable false

namespace Verif.Props

open Verif.Base.Pack
open Verif.Buf (B Env Rep)
open Verif.Utf8 (Kind utf8)

/-- The values given to `pack`. -/
def packed : Args → List Val
  | .values vs => vs
  | .array vs => vs

/-- `pack` appends the bytes of the values to the buffer and leaves what was in it, or fails because memory was refused. -/
theorem C39_pack (fl : Floats) (env : Nat → Env) (b : B) (l : List Nat) (hr : Rep b l) (hro : b.ro = false) (hx : b.ext = false)
    (toks : List Tok) (fmt : List Nat) (hf : FormatText toks fmt) (args : Args) (hn : (packed args).length < 268435455)
    (bytes : List Nat) (backs : List Val) (h : Run fl false toks (packed args) l bytes backs) (hl : l.length + bytes.length ≤ 4294967232) :
    (∃ st, pack fl env b fmt args = .ok st ∧ Rep st.buf (l ++ bytes) ∧ st.buf.ro = false ∧ st.buf.ext = false) ∨
    (∃ st, pack fl env b fmt args = .raise st ∧ Refused env) := by
  obtain ⟨t, sp, rfl, hsp, ht⟩ := hf
  unfold pack
  rw [process_text _ toks t sp false _ _ ht hsp (by rw [List.length_append]; omega)]
  have key : (start args).1.drop (start args).2 = packed args ∧ (start args).2 ≤ (start args).1.length ∧ (start args).1.length < 4294967296 := by
    cases args with
    | values vs => exact ⟨rfl, by simp [start], by simp only [start, packed, List.length_cons] at hn ⊢; omega⟩
    | array vs => exact ⟨rfl, by simp [start], by simp only [start, packed] at hn ⊢; omega⟩
  obtain ⟨k1, k2, k3⟩ := key
  rcases run_pack fl env (start args).1 k3 h ⟨b, (start args).2, 0⟩ (start args).2 ⟨hr, hro, hx, rfl⟩ k1 k2 hl with ⟨st, i, e1, e2⟩ | hh
  · exact Or.inl ⟨st, e1, e2.rep, e2.ro, e2.ext⟩
  · exact Or.inr hh

/-- `unpack`, from where the bytes of the values start, gives the values and stops where the bytes end, or fails because memory was
refused. -/
theorem C39_unpack (fl : Floats) (ue : UEnv) (b : B) (pre bytes tail : List Nat) (hr : Rep b (pre ++ bytes ++ tail)) (hx : b.ext = false)
    (toks : List Tok) (fmt : List Nat) (hf : FormatText toks fmt) (vs : List Val) (backs : List Val) (h : Run fl false toks vs pre bytes backs)
    (he : Ends tail toks) (hl : pre.length + bytes.length + tail.length < 2147483648) :
    (∃ st, unpack fl ue b fmt (some pre.length) = .ok st ∧ st.out.map erase = backs ∧ st.idx = pre.length + bytes.length) ∨
    (∃ st, unpack fl ue b fmt (some pre.length) = .raise st ∧ URefused ue) := by
  obtain ⟨t, sp, rfl, hsp, ht⟩ := hf
  unfold unpack
  rw [process_text _ toks t sp false _ _ ht hsp (by rw [List.length_append]; omega)]
  have hsize : b.size = pre.length + bytes.length + tail.length := by rw [hr.size]; simp [Nat.add_assoc]
  have hs : startPos b (some (pre.length : Int)) = pre.length := by
    unfold startPos
    simp only []
    rw [if_pos (show b.size < 2147483648 by omega), if_neg (show ¬ (pre.length : Int) < 0 by omega)]
    rw [if_neg (show ¬ (pre.length : Int) < 0 by omega), if_neg (by omega)]
    omega
  rw [hs]
  rcases run_unpack fl ue b hx h tail ⟨pre.length, [], 0⟩ he hr hl rfl with ⟨st, ws, e1, e2, e3, e4⟩ | hh
  · exact Or.inl ⟨st, e1, by rw [e3]; simpa using e4, e2⟩
  · exact Or.inr hh

/-- Unpacking what was packed returns the values (reduced to the width of the item), and uses exactly the bytes which were written.
`Fits` below says which values have bytes.

Partial: leaves out a buffer packed into itself when it is empty, and empty strings without a size packed into an empty buffer; these
are violations below.  The whole buffer is shorter than 2^31 bytes. -/
theorem C39_partial (fl : Floats) (env : Nat → Env) (ue : UEnv) (b : B) (l : List Nat) (hr : Rep b l) (hro : b.ro = false) (hx : b.ext = false)
    (toks : List Tok) (fmt : List Nat) (hf : FormatText toks fmt) (he : Ends [] toks) (args : Args) (hn : (packed args).length < 268435455)
    (bytes : List Nat) (backs : List Val) (h : Run fl false toks (packed args) l bytes backs) (hl : l.length + bytes.length < 2147483648)
    (st : PSt) (hp : pack fl env b fmt args = .ok st) :
    (∃ st', unpack fl ue st.buf fmt (some l.length) = .ok st' ∧ st'.out.map erase = backs ∧ st'.idx = st.buf.size) ∨
    (∃ st', unpack fl ue st.buf fmt (some l.length) = .raise st' ∧ URefused ue) := by
  rcases C39_pack fl env b l hr hro hx toks fmt hf args hn bytes backs h (by omega) with ⟨st2, e1, e2, e3, e4⟩ | ⟨st2, e1, _⟩
  · rw [hp] at e1
    simp only [Out.ok.injEq] at e1
    subst e1
    rcases C39_unpack fl ue st.buf l bytes [] (by simpa using e2) e4 toks fmt hf (packed args) backs h he (by simpa using hl) with
      ⟨st', f1, f2, f3⟩ | hh
    · exact Or.inl ⟨st', f1, f2, by rw [f3, e2.size]; simp⟩
    · exact Or.inr hh
  · rw [hp] at e1; simp at e1

/-! ### Which values have bytes -/

/-- A value which can be packed with a format character and a size. -/
inductive FitsOne (fl : Floats) : Fmt → Option Nat → Val → Prop
  | unsigned (v : Val) (k : Int) (n : Nat) : IntArg fl v k → n = 1 ∨ n = 2 ∨ n = 4 ∨ n = 8 → FitsOne fl .u (some n) v
  | signed (v : Val) (k : Int) (n : Nat) : IntArg fl v k → n = 1 ∨ n = 2 ∨ n = 4 ∨ n = 8 → FitsOne fl .i (some n) v
  | single (v : Val) (x : Nat) : FloatArg fl v x → fl.to32 x < 4294967296 → FitsOne fl .f (some 4) v
  | double (v : Val) (x : Nat) : FloatArg fl v x → FitsOne fl .f (some 8) v
  | bytes (src : List Nat) (n : Nat) : FitsOne fl .b (some n) (.buf src)
  | text (k : Kind) (codes : List Nat) (n m : Nat) : Encodable k codes → (codes.flatMap utf8).length + m = n → codes.length + m ≤ 65535 →
      FitsOne fl .s (some n) (.str k codes)
  | textAll (k : Kind) (codes : List Nat) : Encodable k codes → codes ≠ [] → codes.length ≤ 65535 → FitsOne fl .s none (.str k codes)

/-- Values which can be packed with a format. -/
inductive Fits (fl : Floats) : List Tok → List Val → Prop
  | nil (vs : List Val) : Fits fl [] vs
  | order (big : Bool) (toks : List Tok) (vs : List Val) : Fits fl toks vs → Fits fl (.order big :: toks) vs
  | pad (n : Nat) (toks : List Tok) (vs : List Val) : Fits fl toks vs → Fits fl (.item .x (some 1) n :: toks) vs
  | item (f : Fmt) (size : Option Nat) (toks : List Tok) (vs rest : List Val) : f ≠ .x →
      (f = .u ∨ f = .i → size = some 1 ∨ size = some 2 ∨ size = some 4 ∨ size = some 8) → (f = .f → size = some 4 ∨ size = some 8) →
      (f = .b → size ≠ none) → (∀ v ∈ vs, FitsOne fl f size v) →
      Fits fl toks rest → Fits fl (.item f size vs.length :: toks) (vs ++ rest)

theorem FitsOne.one {fl : Floats} {f : Fmt} {size : Option Nat} {v : Val} (h : FitsOne fl f size v) (big : Bool) (cur : List Nat) :
    ∃ bytes back, One fl big f size v cur bytes back := by
  cases h with
  | unsigned v k n hk hn =>
    rcases hn with rfl | rfl | rfl | rfl
    · exact ⟨_, _, .unsigned v k 1 cur hk (by simp)⟩
    · exact ⟨_, _, .unsigned v k 2 cur hk (by simp)⟩
    · exact ⟨_, _, .unsigned v k 4 cur hk (by simp)⟩
    · exact ⟨_, _, .unsigned8 v k cur hk⟩
  | signed v k n hk hn => exact ⟨_, _, .signed v k n cur hk hn⟩
  | single v x hx h32 => exact ⟨_, _, .single v x cur hx h32⟩
  | double v x hx => exact ⟨_, _, .double v x cur hx⟩
  | bytes src n => exact ⟨_, _, .bytes src n cur⟩
  | text k codes n m h1 h2 h3 => exact ⟨_, _, .text k codes n m cur h1 h2 h3⟩
  | textAll k codes h1 h2 h3 => exact ⟨_, _, .textAll k codes cur h1 (Or.inl h2) h3⟩

/-- Every format whose values fit has bytes and values to give back, whatever the buffer holds. -/
theorem C39_total (fl : Floats) (toks : List Tok) (vs : List Val) (h : Fits fl toks vs) :
    ∀ (big : Bool) (cur : List Nat), ∃ bytes backs, Run fl big toks vs cur bytes backs := by
  induction h with
  | nil vs => intro big cur; exact ⟨_, _, .nil big vs cur⟩
  | order big' toks vs _ ih =>
    intro big cur
    obtain ⟨bytes, backs, e⟩ := ih big' cur
    exact ⟨_, _, .order big big' toks vs cur bytes backs e⟩
  | pad n toks vs _ ih =>
    intro big cur
    obtain ⟨bytes, backs, e⟩ := ih big (cur ++ zeros n)
    exact ⟨_, _, .pad big n toks vs cur bytes backs e⟩
  | item f size toks vs rest hf h1 h2 h3 hv _ ih =>
    intro big cur
    have many : ∀ (vs : List Val), (∀ v ∈ vs, FitsOne fl f size v) → ∀ cur, ∃ bytes backs,
        Many fl big f size vs.length (vs ++ rest) cur bytes backs rest := by
      intro vs
      induction vs with
      | nil => intro _ cur; exact ⟨_, _, .zero _ _⟩
      | cons v vs ih2 =>
        intro hvs cur
        obtain ⟨b1, w, e1⟩ := (hvs v (by simp)).one big cur
        obtain ⟨b2, ws, e2⟩ := ih2 (fun v hv => hvs v (by simp [hv])) (cur ++ b1)
        exact ⟨_, _, .succ _ v _ cur b1 w b2 ws rest e1 e2⟩
    obtain ⟨b1, w1, e1⟩ := many vs hv cur
    obtain ⟨b2, w2, e2⟩ := ih big (cur ++ b1)
    exact ⟨_, _, .item big f size _ toks _ cur b1 w1 rest b2 w2 hf h1 h2 h3 e1 e2⟩

theorem IntArg.unique {fl : Floats} {v : Val} {k k' : Int} (h : IntArg fl v k) (h' : IntArg fl v k') : k = k' := by
  rcases h with ⟨rfl | ⟨x, rfl, e⟩, _⟩ <;> rcases h' with ⟨e' | ⟨x', e', e2⟩, _⟩
  · cases e'; rfl
  · cases e'
  · cases e'
  · cases e'; rw [e] at e2; cases e2; rfl

theorem FloatArg.unique {fl : Floats} {v : Val} {x x' : Nat} (h : FloatArg fl v x) (h' : FloatArg fl v x') : x = x' := by
  rcases h with ⟨rfl | ⟨k, rfl, e⟩, _⟩ <;> rcases h' with ⟨e' | ⟨k', e', e2⟩, _⟩
  · cases e'; rfl
  · cases e'
  · cases e'
  · cases e'; rw [← e, ← e2]

theorem One.unique {fl : Floats} {big : Bool} {f : Fmt} {size : Option Nat} {v : Val} {cur bytes bytes' : List Nat} {back back' : Val}
    (h : One fl big f size v cur bytes back) (h' : One fl big f size v cur bytes' back') : bytes = bytes' ∧ back = back' := by
  cases h with
  | unsigned v k n cur hk hn =>
    cases h' with
    | unsigned _ k' _ _ hk' _ => cases IntArg.unique hk hk'; exact ⟨rfl, rfl⟩
    | unsigned8 _ k' _ hk' => omega
  | unsigned8 v k cur hk =>
    cases h' with
    | unsigned _ k' _ _ hk' hn => omega
    | unsigned8 _ k' _ hk' => cases IntArg.unique hk hk'; exact ⟨rfl, rfl⟩
  | signed v k n cur hk hn =>
    cases h' with
    | signed _ k' _ _ hk' _ => cases IntArg.unique hk hk'; exact ⟨rfl, rfl⟩
  | single v x cur hx _ =>
    cases h' with
    | single _ x' _ hx' _ => cases FloatArg.unique hx hx'; exact ⟨rfl, rfl⟩
  | double v x cur hx =>
    cases h' with
    | double _ x' _ hx' => cases FloatArg.unique hx hx'; exact ⟨rfl, rfl⟩
  | bytes src n cur => cases h'; exact ⟨rfl, rfl⟩
  | self n cur _ => cases h'; exact ⟨rfl, rfl⟩
  | text k codes n m cur _ hm _ =>
    cases h' with
    | text _ _ _ m' _ _ hm' _ =>
      have : m = m' := by omega
      subst this
      exact ⟨rfl, rfl⟩
  | textAll k codes cur _ _ _ => cases h'; exact ⟨rfl, rfl⟩

theorem Many.unique {fl : Floats} {big : Bool} {f : Fmt} {size : Option Nat} {n : Nat} {vs rest rest' : List Val} {cur bytes bytes' : List Nat}
    {backs backs' : List Val} (h : Many fl big f size n vs cur bytes backs rest) :
    Many fl big f size n vs cur bytes' backs' rest' → bytes = bytes' ∧ backs = backs' ∧ rest = rest' := by
  induction h generalizing bytes' backs' rest' with
  | zero vs cur => intro h'; cases h'; exact ⟨rfl, rfl, rfl⟩
  | succ n v vs cur bytes back bytes2 backs rest h1 _ ih =>
    intro h'
    cases h' with
    | succ _ _ _ _ b' w' b2' ws' _ h1' h2' =>
      obtain ⟨rfl, rfl⟩ := One.unique h1 h1'
      obtain ⟨rfl, rfl, rfl⟩ := ih h2'
      exact ⟨rfl, rfl, rfl⟩

/-- Bytes and values are determined by the format, the values and the old contents. -/
theorem C39_unique {fl : Floats} {big : Bool} {toks : List Tok} {vs : List Val} {cur bytes bytes' : List Nat} {backs backs' : List Val}
    (h : Run fl big toks vs cur bytes backs) : Run fl big toks vs cur bytes' backs' → bytes = bytes' ∧ backs = backs' := by
  induction h generalizing bytes' backs' with
  | nil big vs cur => intro h'; cases h'; exact ⟨rfl, rfl⟩
  | order big big' toks vs cur bytes backs _ ih => intro h'; cases h' with | order _ _ _ _ _ _ _ h2 => exact ih h2
  | pad big n toks vs cur bytes backs _ ih =>
    intro h'
    cases h' with
    | pad _ _ _ _ _ b' w' h2 => obtain ⟨rfl, rfl⟩ := ih h2; exact ⟨rfl, rfl⟩
    | item _ _ _ _ _ _ _ _ _ _ _ _ hf => exact absurd rfl hf
  | item big f size n toks vs cur bytes backs rest bytes2 backs2 hf _ _ _ hm _ ih =>
    intro h'
    cases h' with
    | pad => exact absurd rfl hf
    | item _ _ _ _ _ _ _ b' w' r' b2' w2' _ _ _ _ hm' h2 =>
      obtain ⟨rfl, rfl, rfl⟩ := Many.unique hm hm'
      obtain ⟨rfl, rfl⟩ := ih h2
      exact ⟨rfl, rfl⟩

/-! ### What is refused -/

/-- Whatever `pack` accepts is a format of the grammar with allowed sizes, and there are enough values of the right types for it.  Everything
else raises an exception (or is an access out of bounds, see C58). -/
theorem C39_pack_accepts (fl : Floats) (env : Nat → Env) (b : B) (fmt : List Nat) (args : Args) (st : PSt) (h : pack fl env b fmt args = .ok st) :
    ∃ toks, FormatText toks fmt ∧ Taken fl toks (packed args) := by
  unfold pack at h
  obtain ⟨toks, e1, e2⟩ := process_ok _ _ false fmt _ st h
  refine ⟨toks, e1, ?_⟩
  have := run_accepts fl env (start args).1 toks false _ st e2
  cases args with
  | values vs => exact this
  | array vs => exact this

/-- Whatever `unpack` accepts is a format of the grammar with allowed sizes, for which there are enough bytes, or an item in it has 2^31
bytes or more. -/
theorem C39_unpack_accepts (fl : Floats) (ue : UEnv) (b : B) (fmt : List Nat) (pos : Option Int) (hb : b.size < 2147483648) (st : USt)
    (h : unpack fl ue b fmt pos = .ok st) :
    ∃ toks, FormatText toks fmt ∧
      ((∃ f n k, .item f (some n) k ∈ toks ∧ 2147483648 ≤ n * k) ∨ Room toks (b.size - startPos b pos)) := by
  unfold unpack at h
  obtain ⟨toks, e1, e2⟩ := process_ok _ _ false fmt _ st h
  refine ⟨toks, e1, ?_⟩
  by_cases hs : ∃ f n k, .item f (some n) k ∈ toks ∧ 2147483648 ≤ n * k
  · exact Or.inl hs
  · right
    have hp : startPos b pos ≤ b.size := by
      unfold startPos
      cases pos with
      | none => exact Nat.zero_le _
      | some p =>
        simp only []
        rw [if_pos hb]
        generalize (if p < 0 then p + (b.size : Int) else p) = q
        split
        · omega
        · split <;> omega
    exact run_unpack_accepts fl ue b hb toks false ⟨startPos b pos, [], 0⟩ st hp
      (fun f n k hm => by
        cases Nat.lt_or_ge (n * k) 2147483648 with
        | inl h => exact h
        | inr h => exact absurd ⟨f, n, k, hm, h⟩ hs) e2

/-- The position argument: from the start or, if negative, from the end, and limited to the buffer. -/
theorem C39_position (fl : Floats) (ue : UEnv) (b : B) (fmt : List Nat) (hb : b.size < 2147483648) :
    (∀ p : Nat, p ≤ b.size → unpack fl ue b fmt (some (-(p : Int))) = unpack fl ue b fmt (some (if p = 0 then (0 : Int) else ((b.size - p : Nat) : Int)))) ∧
    (∀ p : Int, (b.size : Int) < p → unpack fl ue b fmt (some p) = unpack fl ue b fmt (some b.size)) ∧
    (∀ p : Int, p < -(b.size : Int) → unpack fl ue b fmt (some p) = unpack fl ue b fmt (some 0)) ∧
    unpack fl ue b fmt none = unpack fl ue b fmt (some 0) := by
  have pos : ∀ p : Int, startPos b (some p) = (if p < 0 then (if p + b.size < 0 then (0 : Int) else p + b.size) else
      if p > b.size then (b.size : Int) else p).toNat := by
    intro p
    unfold startPos
    simp only []
    rw [if_pos hb]
    repeat' split
    all_goals omega
  have same : ∀ p q : Option Int, startPos b p = startPos b q → unpack fl ue b fmt p = unpack fl ue b fmt q := by
    intro p q h
    unfold unpack
    rw [h]
  refine ⟨fun p hp => same _ _ ?_, fun p hp => same _ _ ?_, fun p hp => same _ _ ?_, same _ _ ?_⟩
  · rw [pos, pos]; repeat' split
    all_goals omega
  · rw [pos, pos]; repeat' split
    all_goals omega
  · rw [pos, pos]; repeat' split
    all_goals omega
  · rw [pos]; show 0 = _; repeat' split
    all_goals omega

/-! ### Violations -/

/-- No memory is refused; fresh memory is not zero. -/
def dirty : Nat → Env := fun _ => ⟨fun _ => true, fun _ => 170⟩

def emptyBuf : B := ⟨0, false, false, none⟩

def noFloats : Floats := ⟨fun _ => 0, fun _ => none, fun _ => 0, fun _ => 0⟩

/-- The full claim for a buffer packed into itself: the old contents, followed by zeros. -/
def C39_self_full : Prop := ∀ (fl : Floats) (env : Nat → Env) (b : B) (l : List Nat) (n : Nat) (st : PSt), Rep b l → b.ro = false → b.ext = false →
  l.length + n < 2147483648 → packItem fl env [.self] ⟨b, 0, 0⟩ ⟨.b, some n, 1, false⟩ = .ok st → Rep st.buf (l ++ (l ++ zeros n).take n)

/-- `var b = buffer(); b.pack("b4", b)` does not pad with zeros but leaves fresh memory in the buffer: the check for overlapping uses
`src < dst`, and here they are equal. -/
theorem C39_self_violated : ¬ C39_self_full := by
  intro h
  have := h noFloats dirty emptyBuf [] 4 ⟨⟨4, false, false, some (List.replicate 64 170)⟩, 1, 1⟩
    ⟨rfl, Or.inl ⟨rfl, rfl⟩, by decide, by decide⟩ rfl rfl (by decide) (by decide +kernel)
  rcases this.data with ⟨e, _⟩ | ⟨r, e⟩
  · simp at e
  · have e2 := congrArg (fun d => (d.getD []).take 1) e
    revert e2
    show ¬ ([170] = [0])
    decide

/-- The full claim for strings without a size: packing succeeds unless memory is refused. -/
def C39_empty_full : Prop := ∀ (fl : Floats) (env : Nat → Env) (b : B) (l : List Nat) (k : Kind) (codes : List Nat), Rep b l → b.ro = false → b.ext = false →
  Encodable k codes → l.length + (codes.flatMap utf8).length < 2147483648 → (∀ t c, (env t).mem c = true) →
  ∃ st, pack fl env b [115] (.values [.str k codes]) = .ok st

/-- `buffer().pack("s", "")` fails, because the buffer has no storage and the address of the new room is null. -/
theorem C39_empty_violated : ¬ C39_empty_full := by
  intro h
  obtain ⟨st, e⟩ := h noFloats dirty emptyBuf [] .ascii [] ⟨rfl, Or.inl ⟨rfl, rfl⟩, by decide, by decide⟩ rfl rfl
    (by intro c hc; simp at hc) (by decide) (fun _ _ => rfl)
  have e2 : pack noFloats dirty emptyBuf [115] (.values [.str .ascii []]) = .raise ⟨emptyBuf, 2, 2⟩ := by decide +kernel
  rw [e] at e2
  simp at e2

/-- The full claim for failures: a failed `pack` leaves the contents of the buffer. -/
def C39_failure_full : Prop := ∀ (fl : Floats) (env : Nat → Env) (b : B) (l : List Nat) (fmt : List Nat) (args : Args) (st : PSt), Rep b l →
  b.ro = false → b.ext = false → pack fl env b fmt args = .raise st → Rep st.buf l

/-- `b.pack("u4", "x")` raises an exception, but the buffer is four bytes longer, and these have never been written. -/
theorem C39_failure_violated : ¬ C39_failure_full := by
  intro h
  have := h noFloats dirty emptyBuf [] [117, 52] (.values [.other]) ⟨⟨4, false, false, some (List.replicate 64 170)⟩, 2, 1⟩
    ⟨rfl, Or.inl ⟨rfl, rfl⟩, by decide, by decide⟩ rfl rfl (by decide +kernel)
  exact absurd this.size (by decide)

/-! ### Examples -/

/-- "> i2 2x < 3u1 b3 s" -/
def exampleFormat : List Nat := [62, 32, 105, 50, 32, 50, 120, 32, 60, 32, 51, 117, 49, 32, 98, 51, 32, 115]

example :
    pack noFloats dirty emptyBuf exampleFormat (.values [.int (-2), .int 1, .int 257, .int (-1), .buf [9], .str .e16 [65, 8364]]) =
    .ok ⟨⟨14, false, false, some ([255, 254, 0, 0, 1, 1, 255, 9, 0, 0, 65, 226, 130, 172] ++ List.replicate 1010 170)⟩, 7, 6⟩ := by decide +kernel

example :
    unpack noFloats ⟨fun _ => true, 8, fun _ => false⟩
      ⟨14, false, false, some ([255, 254, 0, 0, 1, 1, 255, 9, 0, 0, 65, 226, 130, 172] ++ List.replicate 1010 170)⟩ exampleFormat (some 0) =
    .ok ⟨14, [.int (-2), .int 1, .int 1, .int 255, .buf [9, 0, 0], .str .e16 [65, 8364]], 6⟩ := by decide +kernel

end Verif.Props
