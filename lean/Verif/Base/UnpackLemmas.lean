import Verif.Base.PackLemmas
import Verif.Props.C06

/-
`unpack` gives back the values of the specification.
-/
set_option linter.constructorNameAsVariable false

namespace Verif.Base.Pack

open Verif.Buf (B Env Rep)
open Verif.Utf8 (Kind utf8 stringToUtf8 stringFromBuffer)
open Verif.Props (Encodable C05_encode C05_round_trip)

theorem byteAt_spec {b : B} {l : List Nat} (h : Rep b l) (i : Nat) (hi : i < l.length) : byteAt b i = l[i]? := by
  unfold byteAt
  rcases h.data with ⟨_, rfl⟩ | ⟨rest, e⟩
  · simp at hi
  · rw [e]
    simp only
    rw [if_pos (by rw [h.size]; exact hi), List.getElem?_append_left hi]

theorem bytesAt_spec {b : B} {l : List Nat} (h : Rep b l) (i n : Nat) (hi : i + n ≤ l.length) (hn : 0 < n) :
    bytesAt b i n = some ((l.drop i).take n) := by
  unfold bytesAt
  obtain ⟨d, e1, e2⟩ := h.get i n hi hn
  rw [e1]
  simp only
  rw [if_pos (by rw [h.size]; exact hi), e2]

theorem bytesAt_mid {b : B} {A S C : List Nat} (h : Rep b (A ++ S ++ C)) (hn : 0 < S.length) : bytesAt b A.length S.length = some S := by
  rw [bytesAt_spec h A.length S.length (by simp) hn]
  simp

theorem pow256_le (i : Nat) (h : i < 8) : 256 ^ i * 256 ≤ 18446744073709551616 := by
  have : ∀ j : Fin 8, 256 ^ j.val * 256 ≤ 18446744073709551616 := by decide
  exact this ⟨i, h⟩

theorem ordered_mem (big : Bool) (l : List Nat) (x : Nat) : x ∈ ordered big l ↔ x ∈ l := by cases big <;> simp [ordered]

theorem getInt_spec {b : B} {A S C : List Nat} (h : Rep b (A ++ S ++ C)) (big : Bool) (hS : S.length ≤ 8) (hb : ∀ x ∈ S, x < 256)
    (hA : A.length + S.length ≤ 4294967296) (n : Nat) : ∀ (i value : Nat), i + n = S.length → value < 256 ^ i →
    getInt b big S.length A.length n i value = some (be value ((ordered (!big) S).drop i)) := by
  induction n with
  | zero =>
    intro i value hi hv
    rw [List.drop_eq_nil_of_le (by rw [ordered_length]; omega)]
    rfl
  | succ n ih =>
    intro i value hi hv
    rw [getInt]
    have hrel : ∀ r, r < S.length → byteAt b ((A.length + r) % 4294967296) = S[r]? := by
      intro r hr
      rw [Nat.mod_eq_of_lt (by omega), byteAt_spec h _ (by simp; omega), List.append_assoc, List.getElem?_append_right (by omega),
        List.getElem?_append_left (by omega), Nat.add_sub_cancel_left]
    have hlt : i < (ordered (!big) S).length := by rw [ordered_length]; omega
    have hsame : byteAt b ((A.length + if big then i else S.length - 1 - i) % 4294967296) = some (ordered (!big) S)[i] := by
      rw [← List.getElem?_eq_getElem hlt]
      cases big with
      | true => rw [hrel _ (by simp; omega)]; simp [ordered]
      | false => rw [hrel _ (by simp; omega)]; simp only [ordered, Bool.not_false, if_true, Bool.false_eq_true, if_false]
                 rw [List.getElem?_reverse (by omega)]
    rw [hsame]
    simp only
    have hx : (ordered (!big) S)[i] < 256 := by
      have := List.getElem_mem hlt
      apply hb
      exact (ordered_mem _ _ _).mp this
    have hp := pow256_le i (by omega)
    have hv' : value * 256 + 256 ≤ 256 ^ i * 256 := by
      have := Nat.mul_le_mul_right 256 (show value + 1 ≤ 256 ^ i from hv)
      rw [Nat.add_mul] at this
      exact this
    rw [Nat.mod_eq_of_lt (by omega), ih (i + 1) _ (by omega) (by rw [Nat.pow_succ]; omega), List.drop_eq_getElem_cons hlt]
    rfl

theorem leBytes_lt (n : Nat) (v : Int) : ∀ x ∈ leBytes n v, x < 256 := by
  intro x hx
  unfold leBytes at hx
  rw [List.mem_map] at hx
  obtain ⟨k, _, rfl⟩ := hx
  have h1 := Int.emod_lt_of_pos (v / 256 ^ k) (show (0 : Int) < 256 by decide)
  have h2 := Int.emod_nonneg (v / 256 ^ k) (show (256 : Int) ≠ 0 by decide)
  omega

theorem ordered_not (big : Bool) (l : List Nat) : ordered (!big) (ordered big l) = l.reverse := by cases big <;> simp [ordered]

theorem getInt_number {b : B} {A C : List Nat} (big : Bool) (n : Nat) (v : Int) (h : Rep b (A ++ ordered big (leBytes n v) ++ C)) (hn : n ≤ 8)
    (hA : A.length + n ≤ 4294967296) : getInt b big n A.length n 0 0 = some (v % 256 ^ n).toNat := by
  have hl : (ordered big (leBytes n v)).length = n := by rw [ordered_length, leBytes_length]
  have := getInt_spec h big (by omega) (fun x hx => leBytes_lt n v x ((ordered_mem big _ x).mp hx)) (by omega) n 0 0 (by omega) (by simp)
  rw [hl, List.drop_zero, ordered_not, be_le] at this
  exact this

theorem valueOf_u (fl : Floats) (n : Nat) (k : Int) (hn : n = 1 ∨ n = 2 ∨ n = 4) : valueOf fl .u n (k % 256 ^ n).toNat = .int (k % 256 ^ n) := by
  unfold valueOf toI64
  rw [if_neg (by simp), if_neg (by simp)]
  congr 1
  rcases hn with rfl | rfl | rfl
  · rw [show (256 : Int) ^ 1 = 256 by decide]; split <;> omega
  · rw [show (256 : Int) ^ 2 = 65536 by decide]; split <;> omega
  · rw [show (256 : Int) ^ 4 = 4294967296 by decide]; split <;> omega

theorem valueOf_u8 (fl : Floats) (k : Int) (h1 : -9223372036854775808 ≤ k) (h2 : k < 9223372036854775808) :
    valueOf fl .u 8 (k % 256 ^ 8).toNat = .int k := by
  unfold valueOf toI64
  rw [if_neg (by simp), if_neg (by simp)]
  congr 1
  rw [show (256 : Int) ^ 8 = 18446744073709551616 by decide]
  split <;> omega

theorem valueOf_i (fl : Floats) (n : Nat) (k : Int) (h1 : -9223372036854775808 ≤ k) (h2 : k < 9223372036854775808) (hn : n = 1 ∨ n = 2 ∨ n = 4 ∨ n = 8) :
    valueOf fl .i n (k % 256 ^ n).toNat = .int ((k + 128 * 256 ^ (n - 1)) % 256 ^ n - 128 * 256 ^ (n - 1)) := by
  unfold valueOf toI64
  rcases hn with rfl | rfl | rfl | rfl
  · rw [if_pos (by simp)]
    simp only []
    congr 1
    rw [show (2 : Nat) ^ (64 - 8 * 1) = 72057594037927936 by decide, show (2 : Int) ^ (64 - 8 * 1) = 72057594037927936 by decide,
      show (256 : Int) ^ 1 = 256 by decide, show (256 : Int) ^ (1 - 1) = 1 by decide]
    split <;> omega
  · rw [if_pos (by simp)]
    simp only []
    congr 1
    rw [show (2 : Nat) ^ (64 - 8 * 2) = 281474976710656 by decide, show (2 : Int) ^ (64 - 8 * 2) = 281474976710656 by decide,
      show (256 : Int) ^ 2 = 65536 by decide, show (256 : Int) ^ (2 - 1) = 256 by decide]
    split <;> omega
  · rw [if_pos (by simp)]
    simp only []
    congr 1
    rw [show (2 : Nat) ^ (64 - 8 * 4) = 4294967296 by decide, show (2 : Int) ^ (64 - 8 * 4) = 4294967296 by decide,
      show (256 : Int) ^ 4 = 4294967296 by decide, show (256 : Int) ^ (4 - 1) = 16777216 by decide]
    split <;> omega
  · rw [if_neg (by simp), if_neg (by simp)]
    congr 1
    rw [show (256 : Int) ^ 8 = 18446744073709551616 by decide, show (256 : Int) ^ (8 - 1) = 72057594037927936 by decide]
    split <;> omega

theorem string_back (w : Nat) (al : Nat → Bool) (k : Kind) (codes : List Nat) (m : Nat) (h : Encodable k codes) (hne : codes ++ zeros m ≠ [])
    (hl : codes.length + m ≤ 65535) :
    ∃ k', stringFromBuffer w al (codes.flatMap utf8 ++ zeros m) = .ok (k', codes ++ zeros m) := by
  have he : Encodable k (codes ++ zeros m) := by
    intro c hc
    rcases List.mem_append.mp hc with hc | hc
    · exact h c hc
    · have : c = 0 := (List.mem_replicate.mp hc).2
      subst this
      exact ⟨by cases k <;> decide, by decide⟩
  have hz : (zeros m).flatMap utf8 = zeros m := by
    clear hne hl he
    unfold zeros
    induction m with
    | zero => rfl
    | succ m ih => rw [List.replicate_succ, List.flatMap_cons, ih]; rfl
  obtain ⟨bytes, size, k', e1, _, _, e2, _⟩ := C05_round_trip k _ he hne (by rw [List.length_append]; simpa [zeros] using hl) w al
  rw [C05_encode k _ he] at e1
  simp only [Option.some.injEq, Prod.mk.injEq] at e1
  rw [← e1.1, List.flatMap_append, hz] at e2
  exact ⟨k', e2⟩

/-- One value is given back. -/
theorem unpackOne_spec (fl : Floats) (ue : UEnv) (b : B) (f : Fmt) (size : Option Nat) (big : Bool) (v : Val) (cur bytes tail : List Nat) (back : Val)
    (h : One fl big f size v cur bytes back) (hr : Rep b (cur ++ bytes ++ tail)) (hx : b.ext = false)
    (hl : cur.length + bytes.length + tail.length < 2147483648) :
    ∃ w, unpackOne fl ue b f bytes.length big cur.length = .ok w ∧ erase w = back := by
  have hsize : b.size = cur.length + bytes.length + tail.length := by rw [hr.size]; simp [Nat.add_assoc]
  have num : ∀ (n : Nat) (k : Int), bytes = ordered big (leBytes n k) → n ≤ 8 → getInt b big bytes.length cur.length bytes.length 0 0 =
      some (k % 256 ^ n).toNat ∧ bytes.length = n := by
    intro n k e hn
    have hb : bytes.length = n := by rw [e, ordered_length, leBytes_length]
    refine ⟨?_, hb⟩
    rw [hb]
    exact getInt_number big n k (by rw [← e]; exact hr) hn (by omega)
  have buf : (if bytes.length ≠ 0 then if cur.length ≥ 2147483648 then Out.bad else
      match bytesAt b cur.length bytes.length with
      | none => Out.bad
      | some bytes => Out.ok (Val.buf bytes)
      else Out.ok (Val.buf [])) = Out.ok (Val.buf bytes) := by
    by_cases hb : bytes.length = 0
    · rw [if_neg (by omega), List.eq_nil_of_length_eq_zero hb]
    · rw [if_pos hb, if_neg (by omega), bytesAt_mid hr (by omega)]
  have str : ∀ (k : Kind) (codes : List Nat) (m : Nat), Encodable k codes → codes.length + m ≤ 65535 → bytes = codes.flatMap utf8 ++ zeros m →
      ∃ w, unpackOne fl ue b .s bytes.length big cur.length = .ok w ∧ erase w = .str .ascii (codes ++ zeros m) := by
    intro k codes m hk hm e
    simp only [unpackOne]
    by_cases hb : bytes.length = 0
    · rw [if_neg (by omega)]
      refine ⟨_, rfl, ?_⟩
      rw [e, List.length_append] at hb
      have h1 : codes = [] := by
        cases codes with
        | nil => rfl
        | cons c cs =>
          rw [List.flatMap_cons, List.length_append] at hb
          have := Utf8.utf8_ne_nil c
          omega
      have h2 : zeros m = [] := List.eq_nil_of_length_eq_zero (by omega)
      rw [h1, h2]; rfl
    · rw [if_pos hb, Nat.mod_eq_of_lt (by omega), if_neg (by omega), if_neg (by omega), if_neg (by rw [hx]; simp), Nat.add_sub_cancel_left,
        bytesAt_mid hr (by omega)]
      simp only
      have hne : codes ++ zeros m ≠ [] := by
        intro h0
        have h1 : codes = [] ∧ zeros m = [] := by simpa using h0
        rw [e, h1.1, h1.2] at hb
        simp at hb
      obtain ⟨k', e'⟩ := string_back ue.word ue.aligned k codes m hk hne hm
      rw [e, e']
      exact ⟨_, rfl, rfl⟩
  cases h with
  | unsigned v k n cur hk hn =>
    obtain ⟨e1, e2⟩ := num n k rfl (by omega)
    simp only [unpackOne, e1]
    rw [e2]
    exact ⟨_, rfl, by rw [valueOf_u fl n k hn]; rfl⟩
  | unsigned8 v k cur hk =>
    obtain ⟨e1, e2⟩ := num 8 k rfl (by omega)
    simp only [unpackOne, e1]
    rw [e2]
    exact ⟨_, rfl, by rw [valueOf_u8 fl k hk.2.1 hk.2.2]; rfl⟩
  | signed v k n cur hk hn =>
    obtain ⟨e1, e2⟩ := num n k rfl (by omega)
    simp only [unpackOne, e1]
    rw [e2]
    exact ⟨_, rfl, by rw [valueOf_i fl n k hk.2.1 hk.2.2 hn]; rfl⟩
  | single v x cur hx h32 =>
    obtain ⟨e1, e2⟩ := num 4 _ rfl (by omega)
    simp only [unpackOne, e1]
    rw [e2]
    refine ⟨_, rfl, ?_⟩
    unfold valueOf
    rw [if_neg (by simp), if_pos rfl, if_pos rfl]
    simp only [erase]
    congr 2
    rw [show (256 : Int) ^ 4 = 4294967296 by decide]
    omega
  | double v x cur hx =>
    obtain ⟨e1, e2⟩ := num 8 _ rfl (by omega)
    simp only [unpackOne, e1]
    rw [e2]
    refine ⟨_, rfl, ?_⟩
    unfold valueOf
    rw [if_neg (by simp), if_pos rfl, if_neg (by decide)]
    simp only [erase]
    congr 1
    have := hx.2
    rw [show (256 : Int) ^ 8 = 18446744073709551616 by decide]
    omega
  | bytes src n cur => exact ⟨_, by simp only [unpackOne]; exact buf, rfl⟩
  | self n cur _ => exact ⟨_, by simp only [unpackOne]; exact buf, rfl⟩
  | text k codes n m cur hk hm hl' => exact str k codes m hk hl' rfl
  | textAll k codes cur hk _ hl' =>
    obtain ⟨w, e1, e2⟩ := str k codes 0 hk hl' (by simp [zeros])
    exact ⟨w, e1, by rw [e2]; simp [zeros]⟩

/-- Memory was refused. -/
def URefused (ue : UEnv) : Prop := ∃ t, ue.mem t = false

theorem unpackLoop_spec (fl : Floats) (ue : UEnv) (b : B) (hx : b.ext = false) (f : Fmt) (n : Nat) (big : Bool) {k : Nat} {vs rest : List Val}
    {cur bytes : List Nat} {backs : List Val} (h : Many fl big f (some n) k vs cur bytes backs rest) :
    ∀ (tail : List Nat) (st : USt), Rep b (cur ++ bytes ++ tail) → cur.length + bytes.length + tail.length < 2147483648 → st.idx = cur.length →
      (∃ st' ws, unpackLoop fl ue b f n big k st = .ok st' ∧ st'.idx = cur.length + bytes.length ∧ st'.out = st.out ++ ws ∧ ws.map erase = backs) ∨
      (∃ st', unpackLoop fl ue b f n big k st = .raise st' ∧ URefused ue) := by
  induction h with
  | zero vs cur => intro tail st _ _ hi; exact Or.inl ⟨st, [], rfl, by simpa using hi, by simp, rfl⟩
  | succ k v vs cur bytes back bytes' backs rest h1 h2 ih =>
    intro tail st hr hl hi
    rw [List.length_append] at hl
    have hlen := h1.length
    obtain ⟨w, e1, e2⟩ := unpackOne_spec fl ue b f (some n) big v cur bytes (bytes' ++ tail) back h1 (by simpa using hr) hx
      (by rw [List.length_append]; omega)
    rw [hlen] at e1
    rw [unpackLoop, hi, e1]
    simp only
    by_cases hm : ue.mem st.t = true
    · rw [if_pos hm, Nat.mod_eq_of_lt (by omega)]
      rcases ih tail ⟨cur.length + n, st.out ++ [w], st.t + 1⟩ (by simpa using hr) (by rw [List.length_append]; omega)
        (by simp [hlen]) with ⟨st', ws, f1, f2, f3, f4⟩ | ⟨st', f1, f2⟩
      · refine Or.inl ⟨st', w :: ws, f1, ?_, ?_, ?_⟩
        · rw [f2, List.length_append, List.length_append]; omega
        · rw [f3]; simp
        · rw [List.map_cons, e2, f4]
      · exact Or.inr ⟨st', f1, f2⟩
    · rw [if_neg hm]
      exact Or.inr ⟨_, rfl, _, by simpa using hm⟩

/-- A string which takes the rest of the buffer is the last element, and there is one of it. -/
def Ends (tail : List Nat) : List Tok → Prop
  | [] => True
  | .item f none n :: toks => (n = 1 ∧ toks = [] ∧ tail = []) ∨ (f = .x ∧ Ends tail toks)
  | _ :: toks => Ends tail toks

theorem unpackSized_eq (fl : Floats) (ue : UEnv) (b : B) (st : USt) (f : Fmt) (sz : Option Nat) (k : Nat) (big : Bool) (size : Nat) (hf : f ≠ .x)
    (h1 : f = .u ∨ f = .i → size = 1 ∨ size = 2 ∨ size = 4 ∨ size = 8) (h2 : f = .f → size = 4 ∨ size = 8) (hb : b.size < 4294967296)
    (hl : st.idx + size * k ≤ b.size) : unpackSized fl ue b st ⟨f, sz, k, big⟩ size = unpackLoop fl ue b f size big k st := by
  unfold unpackSized
  simp only []
  rw [Nat.mod_eq_of_lt (show size * k < 4294967296 by omega), Nat.mod_eq_of_lt (show st.idx + size * k < 4294967296 by omega), if_neg (by omega)]
  by_cases hk : k = 0
  · rw [if_pos hk, hk]; rfl
  · rw [if_neg hk]
    have hng : ¬ ((f = .f ∧ size ≠ 4 ∧ size ≠ 8) ∨ ((f = .f ∨ f = .i ∨ f = .u) ∧ size ≠ 1 ∧ size ≠ 2 ∧ size ≠ 4 ∧ size ≠ 8)) := by
      rintro (⟨a, b, c⟩ | ⟨a | a | a, b, c, d, e⟩)
      · rcases h2 a with h | h <;> contradiction
      · rcases h2 a with h | h <;> contradiction
      · rcases h1 (Or.inr a) with h | h | h | h <;> contradiction
      · rcases h1 (Or.inl a) with h | h | h | h <;> contradiction
    cases f with
    | x => exact absurd rfl hf
    | _ => exact if_neg hng

theorem run_unpack (fl : Floats) (ue : UEnv) (b : B) (hx : b.ext = false) {big : Bool} {toks : List Tok} {vs : List Val} {cur bytes : List Nat}
    {backs : List Val} (h : Run fl big toks vs cur bytes backs) :
    ∀ (tail : List Nat) (st : USt), Ends tail toks → Rep b (cur ++ bytes ++ tail) → cur.length + bytes.length + tail.length < 2147483648 →
      st.idx = cur.length →
      (∃ st' ws, runToks (unpackItem fl ue b) big toks st = .ok st' ∧ st'.idx = cur.length + bytes.length ∧ st'.out = st.out ++ ws ∧
        ws.map erase = backs) ∨
      (∃ st', runToks (unpackItem fl ue b) big toks st = .raise st' ∧ URefused ue) := by
  induction h with
  | nil big vs cur => intro tail st _ _ _ hi; exact Or.inl ⟨st, [], rfl, by simpa using hi, by simp, rfl⟩
  | order big big' toks vs cur bytes backs _ ih => intro tail st he hr hl hi; exact ih tail st he hr hl hi
  | pad big n toks vs cur bytes backs _ ih =>
    intro tail st he hr hl hi
    have hz : (zeros n).length = n := by simp [zeros]
    rw [List.length_append, hz] at hl
    have hsize : b.size = cur.length + (n + bytes.length) + tail.length := by rw [hr.size]; simp [hz, Nat.add_assoc]
    simp only [runToks, unpackItem]
    have e : unpackSized fl ue b st ⟨.x, some 1, n, big⟩ 1 = .ok { st with idx := cur.length + n } := by
      unfold unpackSized
      simp only []
      rw [Nat.one_mul, Nat.mod_eq_of_lt (show n < 4294967296 by omega), Nat.mod_eq_of_lt (show st.idx + n < 4294967296 by omega), if_neg (by omega)]
      by_cases hn : n = 0
      · rw [if_pos hn, hn, Nat.add_zero, ← hi]
      · rw [if_neg hn, hi]
    rw [e]
    simp only
    rcases ih tail { st with idx := cur.length + n } he (by simpa using hr) (by rw [List.length_append, hz]; omega) (by rw [List.length_append, hz]) with
      ⟨st', ws, f1, f2, f3, f4⟩ | hh
    · exact Or.inl ⟨st', ws, f1, by rw [f2, List.length_append, List.length_append]; omega, f3, f4⟩
    · exact Or.inr hh
  | item big f size n toks vs cur bytes backs rest bytes' backs' hf h1 h2 h3 hm hrun ih =>
    intro tail st he hr hl hi
    rw [List.length_append] at hl
    have hsize : b.size = cur.length + (bytes.length + bytes'.length) + tail.length := by rw [hr.size]; simp [Nat.add_assoc]
    simp only [runToks]
    cases size with
    | some m =>
      have hlen := hm.length
      have e : unpackItem fl ue b st ⟨f, some m, n, big⟩ = unpackLoop fl ue b f m big n st := by
        simp only [unpackItem]
        exact unpackSized_eq fl ue b st f (some m) n big m hf (fun h => by simpa using h1 h) (fun h => by simpa using h2 h) (by omega) (by omega)
      rw [e]
      have he' : Ends tail toks := by
        cases f <;> exact he
      rcases unpackLoop_spec fl ue b hx f m big hm (bytes' ++ tail) st (by simpa using hr) (by rw [List.length_append]; omega) hi with
        ⟨st', ws, f1, f2, f3, f4⟩ | ⟨st', f1, f2⟩
      · simp only [f1]
        rcases ih tail st' he' (by simpa using hr) (by rw [List.length_append]; omega) (by rw [f2, List.length_append]) with
          ⟨st'', ws', g1, g2, g3, g4⟩ | hh
        · refine Or.inl ⟨st'', ws ++ ws', g1, ?_, ?_, ?_⟩
          · rw [g2, List.length_append, List.length_append]; omega
          · rw [g3, f3, List.append_assoc]
          · rw [List.map_append, f4, g4]
        · exact Or.inr hh
      · simp only [f1]
        exact Or.inr ⟨_, rfl, f2⟩
    | none =>
      simp only [Ends] at he
      rcases he with ⟨rfl, rfl, rfl⟩ | ⟨hfx, _⟩
      · cases hrun
        cases hm with
        | succ _ v vs' _ bytes1 back bytes2 backs2 _ ho hm2 =>
          cases hm2
          simp only [List.append_nil] at hr hl hsize ⊢
          simp only [List.length_append, List.length_nil, Nat.add_zero] at hsize hl
          have hidx : (b.size + 4294967296 - st.idx) % 4294967296 = bytes1.length := by omega
          obtain ⟨w, e1, e2⟩ := unpackOne_spec fl ue b f none big v cur bytes1 [] back ho (by simpa using hr) hx (by simp; omega)
          have e : unpackItem fl ue b st ⟨f, none, 1, big⟩ = unpackLoop fl ue b f bytes1.length big 1 st := by
            simp only [unpackItem]
            rw [if_neg (by simp), hidx]
            exact unpackSized_eq fl ue b st f none 1 big _ hf (fun h => by simpa using h1 h) (fun h => by simpa using h2 h) (by omega) (by omega)
          rw [e]
          simp only [unpackLoop, hi, e1]
          by_cases hmem : ue.mem st.t = true
          · rw [if_pos hmem, Nat.mod_eq_of_lt (by omega)]
            exact Or.inl ⟨_, [w], rfl, rfl, rfl, by simp [e2]⟩
          · rw [if_neg hmem]
            exact Or.inr ⟨_, rfl, _, by simpa using hmem⟩
      · exact absurd hfx hf

/-! ### Bounds -/

theorem getInt_some (b : B) (l : List Nat) (h : Rep b l) (big : Bool) (size offs : Nat) (ho : offs + size ≤ l.length) (h32 : l.length < 4294967296) (n : Nat) :
    ∀ i value, i + n = size → getInt b big size offs n i value ≠ none := by
  induction n with
  | zero => intro i value _; simp [getInt]
  | succ n ih =>
    intro i value hi
    rw [getInt]
    have hr : (if big = true then i else size - 1 - i) < size := by split <;> omega
    rw [byteAt_spec h _ (by rw [Nat.mod_eq_of_lt (by omega)]; omega), List.getElem?_eq_getElem (by rw [Nat.mod_eq_of_lt (by omega)]; omega)]
    exact ih (i + 1) _ (by omega)

theorem unpackOne_safe (fl : Floats) (ue : UEnv) (b : B) (l : List Nat) (h : Rep b l) (hx : b.ext = false) (hb : ∀ x ∈ l, x < 256)
    (hl : l.length < 2147483648) (f : Fmt) (hf : f ≠ .x) (size : Nat) (big : Bool) (offs : Nat) (ho : offs + size ≤ l.length) :
    unpackOne fl ue b f size big offs ≠ .bad := by
  have hg := getInt_some b l h big size offs ho (by omega) size 0 0 (by omega)
  unfold unpackOne
  cases f with
  | x => exact absurd rfl hf
  | u | i | f =>
    simp only
    cases hv : getInt b big size offs size 0 0 with
    | none => exact absurd hv hg
    | some v => simp
  | b =>
    simp only
    by_cases hs : size = 0
    · rw [if_neg (by omega)]; simp
    · rw [if_pos hs, if_neg (by omega), bytesAt_spec h offs size ho (by omega)]; simp
  | s =>
    simp only
    by_cases hs : size = 0
    · rw [if_neg (by omega)]; simp
    · rw [if_pos hs, Nat.mod_eq_of_lt (by omega)]
      split
      · simp
      · rw [if_neg (by rw [h.size]; omega), if_neg (by rw [hx]; simp), Nat.add_sub_cancel_left, bytesAt_spec h offs size ho (by omega)]
        simp only
        have hne : (l.drop offs).take size ≠ [] := by
          intro e
          have := congrArg List.length e
          rw [List.length_take, List.length_drop] at this
          simp at this; omega
        have := Props.C06_from_buffer_in_bounds ue.word ue.aligned ((l.drop offs).take size)
          (fun x hx' => hb x (List.mem_of_mem_drop (List.mem_of_mem_take hx'))) hne
        cases hsf : stringFromBuffer ue.word ue.aligned ((l.drop offs).take size) with
        | ok p => simp
        | err => simp
        | ub => exact absurd hsf this

theorem unpackLoop_safe (fl : Floats) (ue : UEnv) (b : B) (l : List Nat) (h : Rep b l) (hx : b.ext = false) (hb : ∀ x ∈ l, x < 256)
    (hl : l.length < 2147483648) (f : Fmt) (hf : f ≠ .x) (size : Nat) (big : Bool) (k : Nat) :
    ∀ st : USt, st.idx + size * k ≤ l.length →
      unpackLoop fl ue b f size big k st ≠ .bad ∧ ∀ st', unpackLoop fl ue b f size big k st = .ok st' → st'.idx ≤ l.length := by
  induction k with
  | zero =>
    intro st ho
    exact ⟨by simp [unpackLoop], fun st' he => by simp only [unpackLoop, Out.ok.injEq] at he; subst he; omega⟩
  | succ k ih =>
    intro st ho
    rw [Nat.mul_succ] at ho
    have h1 := unpackOne_safe fl ue b l h hx hb hl f hf size big st.idx (by omega)
    rw [unpackLoop]
    cases hu : unpackOne fl ue b f size big st.idx with
    | bad => exact absurd hu h1
    | raise _ => simp
    | ok v =>
      simp only
      by_cases hm : ue.mem st.t = true
      · rw [if_pos hm]
        exact ih _ (by show (st.idx + size) % 4294967296 + _ ≤ _; rw [Nat.mod_eq_of_lt (by omega)]; omega)
      · rw [if_neg hm]; simp

theorem unpackSized_safe (fl : Floats) (ue : UEnv) (b : B) (l : List Nat) (h : Rep b l) (hx : b.ext = false) (hb : ∀ x ∈ l, x < 256)
    (hl : l.length < 2147483648) (st : USt) (hi : st.idx ≤ l.length) (c : Call) (size : Nat) (hs : size * c.count < 4294967296 - l.length) :
    unpackSized fl ue b st c size ≠ .bad ∧ ∀ st', unpackSized fl ue b st c size = .ok st' → st'.idx ≤ l.length := by
  unfold unpackSized
  rw [Nat.mod_eq_of_lt (show size * c.count < 4294967296 by omega), Nat.mod_eq_of_lt (show st.idx + size * c.count < 4294967296 by omega), h.size]
  by_cases ho : st.idx + size * c.count > l.length
  · rw [if_pos ho]; simp
  · rw [if_neg ho]
    by_cases hc : c.count = 0
    · rw [if_pos hc]; exact ⟨by simp, fun st' he => by simp only [Out.ok.injEq] at he; subst he; exact hi⟩
    · rw [if_neg hc]
      cases hf : c.fmt with
      | x => exact ⟨by simp, fun st' he => by simp only [Out.ok.injEq] at he; subst he; show st.idx + size * c.count ≤ _; omega⟩
      | _ =>
        simp only []
        split
        · simp
        · exact unpackLoop_safe fl ue b l h hx hb hl _ (by simp) size c.big c.count st (by omega)

theorem unpackItem_safe (fl : Floats) (ue : UEnv) (b : B) (l : List Nat) (h : Rep b l) (hx : b.ext = false) (hb : ∀ x ∈ l, x < 256)
    (hl : l.length < 2147483648) (st : USt) (hi : st.idx ≤ l.length) (c : Call) (hs : ∀ n, c.size = some n → n * c.count < 4294967296 - l.length) :
    unpackItem fl ue b st c ≠ .bad ∧ ∀ st', unpackItem fl ue b st c = .ok st' → st'.idx ≤ l.length := by
  unfold unpackItem
  cases hc : c.size with
  | none =>
    simp only
    by_cases h1 : c.count = 1
    · rw [if_neg (by omega)]
      refine unpackSized_safe fl ue b l h hx hb hl st hi c _ ?_
      rw [h.size, h1]; omega
    · rw [if_pos h1]; simp
  | some n => exact unpackSized_safe fl ue b l h hx hb hl st hi c n (hs n hc)

end Verif.Base.Pack
