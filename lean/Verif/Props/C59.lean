import Verif.Ctl.JumpArray

/-
C59: an array of pending jumps holds every jump added to it.
-/
namespace Verif.Props

open Verif.Ctl

/-- Adding the jumps `es` ends without access outside of the array's storage; if no call fails, the array has them all. -/
def KeepsAll (es : List (PushEnv × Nat)) : Prop :=
  match JumpArray.init.pushes es with
  | .ok a => a.entries = es.map fun e => some e.2
  | .oom => ∃ e ∈ es, e.1.mem = false
  | .bad => False

/-- The full claim. -/
def C59_full : Prop := ∀ es, KeepsAll es

/-- The array is well formed and has the jumps `l`. -/
structure JA (a : JumpArray) (l : List Nat) : Prop where
  num  : a.num = l.length
  le   : a.num ≤ a.cap
  len  : a.buf.length = a.cap
  cap  : a.cap = 4 ∨ a.cap = 8 ∨ a.cap = 16 ∨ a.cap = 32 ∨ a.cap = 64 ∨ a.cap = 128 ∨ a.cap = 256 ∨ a.cap = 512 ∨ a.cap = 1024 ∨
    a.cap = 2048 ∨ a.cap = 4096 ∨ a.cap = 8192 ∨ a.cap = 16384 ∨ a.cap = 32768
  has  : a.buf.take a.num = l.map some

theorem take_set_concat {α : Type} (l : List α) (i : Nat) (a : α) (h : i < l.length) : (l.set i a).take (i + 1) = l.take i ++ [a] := by
  rw [List.take_add_one, List.take_set_of_le (Nat.le_refl i)]
  simp [h]

theorem append_ok (a : JumpArray) (l : List Nat) (env : PushEnv) (e : Nat) (h : JA a l) (hn : a.num < a.cap) (hv : env.vec = true) :
    ∃ a', a.append env e = .ok a' ∧ JA a' (l ++ [e]) := by
  have hlt : a.num < a.buf.length := by rw [h.len]; exact hn
  have hc : a.cap ≤ 32768 := by rcases h.cap with h | h | h | h | h | h | h | h | h | h | h | h | h | h <;> omega
  have hm : (a.num + 1) % 65536 = a.num + 1 := Nat.mod_eq_of_lt (by omega)
  refine ⟨⟨(a.num + 1) % 65536, a.cap, a.buf.set a.num (some e)⟩, by simp [JumpArray.append, hv, hlt], ?_, ?_, ?_, h.cap, ?_⟩
  · simp only [List.length_append, List.length_cons, List.length_nil]; rw [hm, h.num]
  · simp only [hm]; omega
  · simp [h.len]
  · simp only [hm, take_set_concat _ _ _ hlt, h.has, List.map_append, List.map_cons, List.map_nil]

theorem push_ok (a : JumpArray) (l : List Nat) (env : PushEnv) (e : Nat) (h : JA a l) (hl : l.length < 32768) (hv : env.vec = true) :
    (∃ a', a.push env e = .ok a' ∧ JA a' (l ++ [e])) ∨ (a.push env e = .oom ∧ env.mem = false) := by
  unfold JumpArray.push
  split
  · next hge =>
    cases hm : env.mem
    · right; simp
    · left
      have hlen := h.num
      have hle := h.le
      have hmod : a.cap * 2 % 65536 = a.cap * 2 := Nat.mod_eq_of_lt (by omega)
      have hb := h.len
      simp only [hmod, if_true]
      rw [if_pos ⟨by omega, by omega⟩]
      refine append_ok _ l env e ⟨hlen, by simp only; omega, ?_, ?_, ?_⟩ ?_ hv
      · simp only [List.length_append, List.length_take, List.length_replicate]; omega
      · have := h.cap; simp only; omega
      · simp only
        rw [List.take_append_of_le_length (by simp; omega), List.take_take, Nat.min_self, h.has]
      · have : 0 < a.cap := by have := h.cap; omega
        simp only; omega
  · next hlt => left; exact append_ok a l env e h (by omega) hv

theorem pushes_ok (es : List (PushEnv × Nat)) : ∀ (a : JumpArray) (l : List Nat), JA a l → l.length + es.length ≤ 32768 →
    (∀ e ∈ es, e.1.vec = true) →
    (∃ a', a.pushes es = .ok a' ∧ JA a' (l ++ es.map (·.2))) ∨ (a.pushes es = .oom ∧ ∃ e ∈ es, e.1.mem = false) := by
  induction es with
  | nil => intro a l h _ _; exact .inl ⟨a, rfl, by simpa using h⟩
  | cons p es ih =>
    intro a l h hl hv
    simp only [List.length_cons] at hl
    rcases push_ok a l p.1 p.2 h (by omega) (hv p (by simp)) with ⟨a', ha, hj⟩ | ⟨ho, hm⟩
    · rcases ih a' (l ++ [p.2]) hj (by simp; omega) (fun e he => hv e (by simp [he])) with ⟨a2, h2, hj2⟩ | ⟨ho, e, he, hm⟩
      · exact .inl ⟨a2, by simp [JumpArray.pushes, ha, h2], by simpa using hj2⟩
      · exact .inr ⟨by simp [JumpArray.pushes, ha, ho], e, by simp [he], hm⟩
    · exact .inr ⟨by simp [JumpArray.pushes, ho], p, by simp, hm⟩

theorem JA_init : JA JumpArray.init [] := ⟨rfl, by decide, rfl, .inl rfl, rfl⟩

/-- KeepsAll for at most 32768 jumps, if the list of all jumps can be extended.  Missing: the two cases of the violations below. -/
theorem C59_partial (es : List (PushEnv × Nat)) (hl : es.length ≤ 32768) (hv : ∀ e ∈ es, e.1.vec = true) : KeepsAll es := by
  unfold KeepsAll
  rcases pushes_ok es _ [] JA_init (by simpa using hl) hv with ⟨a, h, hj⟩ | ⟨h, hm⟩
  · rw [h]; simpa [JumpArray.entries, Function.comp_def] using hj.has
  · rw [h]; exact hm

theorem pushes_append (a : JumpArray) (es fs : List (PushEnv × Nat)) :
    a.pushes (es ++ fs) = match a.pushes es with | .ok a => a.pushes fs | r => r := by
  induction es generalizing a with
  | nil => rfl
  | cons p es ih =>
    simp only [List.cons_append, JumpArray.pushes]
    cases a.push p.1 p.2 <;> simp [ih]

/-- Whenever 32768 jumps are in the array, the next one is written outside of it: the doubled capacity is 0. -/
theorem C59_overflow (es : List (PushEnv × Nat)) (hl : es.length = 32768) (h : ∀ e ∈ es, e.1.vec = true ∧ e.1.mem = true)
    (env : PushEnv) (hm : env.mem = true) (e : Nat) : JumpArray.init.pushes (es ++ [(env, e)]) = .bad := by
  rw [pushes_append]
  rcases pushes_ok es _ [] JA_init (by simp; omega) (fun e he => (h e he).1) with ⟨a, ha, hj⟩ | ⟨_, e, he, hm⟩
  · rw [ha]
    have hn : a.num = 32768 := by rw [hj.num]; simpa using hl
    have hc : a.cap = 32768 := by have := hj.le; have := hj.cap; omega
    simp [JumpArray.pushes, JumpArray.push, hn, hc, hm]
  · rw [(h e he).2] at hm; cases hm

theorem many_jumps (n : Nat) : ∃ es : List (PushEnv × Nat), es.length = n ∧ ∀ e ∈ es, e.1.vec = true ∧ e.1.mem = true :=
  ⟨List.replicate n (⟨true, true⟩, 0), List.length_replicate, fun e he => by rw [(List.mem_replicate.1 he).2]; exact ⟨rfl, rfl⟩⟩

theorem C59_violated : ¬ C59_full := by
  intro h
  obtain ⟨es, hl, he⟩ := many_jumps 32768
  have := h (es ++ [(⟨true, true⟩, 0)])
  unfold KeepsAll at this
  rwa [C59_overflow es hl he ⟨true, true⟩ rfl 0] at this

/-- When the list of all jumps cannot be extended, the call succeeds and leaves an entry which was never written. -/
theorem C59_ignored_error_violated : ¬ ∀ es : List (PushEnv × Nat), es.length ≤ 32768 → KeepsAll es := by
  intro h
  have := h [(⟨true, false⟩, 7)] (by decide)
  simp [KeepsAll, JumpArray.pushes, JumpArray.push, JumpArray.append, JumpArray.init, JumpArray.entries] at this

/-- Ten jumps, with two reallocations. -/
example : (match JumpArray.init.pushes ((List.range 10).map fun e => (⟨true, true⟩, e)) with
    | .ok a => (a.num, a.cap, a.entries) | _ => (0, 0, [])) = (10, 16, (List.range 10).map some) := by decide

end Verif.Props
