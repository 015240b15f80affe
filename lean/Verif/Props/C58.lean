import Verif.Props.C40

/-
C58: `pack` never writes (or reads) outside of the buffer's storage.  An access outside of it is the outcome `bad`.
-/
set_option linter.constructorNameAsVariable false

namespace Verif.Props

open Verif.Base.Pack
open Verif.Buf (B Env Rep makeRoom reserve capacity finishRoom dataVolatile alloc)
open Verif.Utf8 (Kind utf8 stringToUtf8)

/-- Strings have at most 65535 elements, which fit their kind. -/
def ValidStr : Val → Prop
  | .str k codes => codes.length ≤ 65535 ∧ ∀ c ∈ codes, c < k.bound
  | _ => True

/-- The full claim. -/
def C58_full : Prop := ∀ (fl : Floats) (env : Nat → Env) (b : B) (l : List Nat) (fmt : List Nat) (args : Args), Rep b l → (start args).1.length < 268435456 →
  (∀ v ∈ (start args).1, ValidStr v) → pack fl env b fmt args ≠ .bad

/-- The system has no blocks of 2^31 bytes. -/
def SmallMemory (env : Nat → Env) : Prop := ∀ t c, 2147483648 ≤ c → (env t).mem c = false

theorem reserve_cap (env : Env) (s s' : B) (l : List Nat) (n : Nat) (u : Unit) (hr : Rep s l) (h : reserve env s n = .ok u s') :
    capacity s' = capacity s ∨ env.mem (capacity s') = true := by
  unfold reserve at h
  simp only [] at h
  split at h
  · simp at h
  · split at h
    · simp at h
    · split at h
      · next hc =>
        unfold alloc at h
        by_cases hm : env.mem (Buf.alignUp n) = true
        · rw [if_pos hm] at h
          simp only at h
          have hlc := hr.len_cap
          have hs := hr.size
          split at h
          · simp at h
          · split at h
            · split at h
              · simp at h
              · next old ho =>
                simp only [Buf.Out.ok.injEq, true_and] at h
                subst h
                right
                have hcap : capacity s = old.length := by unfold capacity; rw [ho]
                have : capacity { s with data := some (List.take s.size old ++ List.drop s.size (List.map env.junk (List.range (Buf.alignUp n)))) } =
                    Buf.alignUp n := by
                  simp only [capacity, List.length_append, List.length_take, List.length_drop, List.length_map, List.length_range]
                  omega
                rw [this]; exact hm
            · simp only [Buf.Out.ok.injEq, true_and] at h
              subst h
              right
              have : capacity { s with data := some (List.map env.junk (List.range (Buf.alignUp n))) } = Buf.alignUp n := by
                simp [capacity]
              rw [this]; exact hm
        · rw [if_neg hm] at h
          simp at h
      · simp only [Buf.Out.ok.injEq, true_and] at h
        subst h; left; rfl

theorem makeRoom_cap (env : Env) (s s' : B) (l : List Nat) (n off : Nat) (hr : Rep s l) (h : makeRoom env s n = .ok off s') :
    capacity s' = capacity s ∨ env.mem (capacity s') = true := by
  unfold makeRoom at h
  simp only [] at h
  split at h
  · simp at h
  · split at h
    · simp at h
    · have fin : ∀ s1 : B, finishRoom s1 s.size ((s.size + n) % 4294967296) = .ok off s' → capacity s' = capacity s1 := by
        intro s1 h1
        unfold finishRoom dataVolatile at h1
        simp only [] at h1
        split at h1
        · next s2 h2 =>
          split at h2
          · simp at h2
          · split at h2
            · simp at h2
            · simp only [Buf.Out.ok.injEq, true_and] at h2 h1
              rw [← h1.2, ← h2]; rfl
        · simp at h1
        · simp at h1
      split at h
      · simp at h
      · simp at h
      · next u s1 h1 =>
        rw [fin s1 h]
        generalize (if (s.size + n) % 4294967296 > 1024 then (s.size + n) % 4294967296 else 1024) = c at h1
        by_cases hcc : c > capacity s
        · rw [if_pos hcc] at h1
          exact reserve_cap env s s1 l _ u hr h1
        · rw [if_neg hcc] at h1
          simp only [Buf.Out.ok.injEq, true_and] at h1
          subst h1; left; rfl

/-- What holds between items. -/
def Fine (st : PSt) : Prop := ∃ l, Rep st.buf l ∧ capacity st.buf < 2147483648

/-- Making room for a moderate number of bytes. -/
theorem room_safe (env : Nat → Env) (hm : SmallMemory env) (t : Nat) (b : B) (l : List Nat) (hr : Rep b l) (hc : capacity b < 2147483648) (n : Nat)
    (hn : n < 2147483648) :
    (∃ b' j, makeRoom (env t) b n = .ok l.length b' ∧ j.length = n ∧ Rep b' (l ++ j) ∧ capacity b' < 2147483648) ∨
    (∃ e b', makeRoom (env t) b n = .raise e b') := by
  cases hro : b.ro with
  | true => right; exact ⟨_, _, by unfold makeRoom; rw [if_pos hro]⟩
  | false =>
    have hs : l.length + n ≤ 4294967232 ∨ 4294967296 ≤ l.length + n ∨ b.ext = true := by
      cases hx : b.ext with
      | true => simp
      | false =>
        left
        have := hr.cap hx
        have := hr.len_cap
        omega
    rcases Buf.makeRoom_spec (env t) b l n hr hro (by omega) hs with
      ⟨b', j, e1, e2, e3, _⟩ | ⟨e1, _⟩ | ⟨e1, _⟩ | ⟨e1, _⟩ | ⟨e1, _⟩
    · refine Or.inl ⟨b', j, e1, e2, e3, ?_⟩
      rcases makeRoom_cap (env t) b b' l n _ hr e1 with h | h
      · omega
      · cases Nat.lt_or_ge (capacity b') 2147483648 with
        | inl h' => exact h'
        | inr h' => rw [hm t _ h'] at h; simp at h
    · exact Or.inr ⟨_, _, e1⟩
    · exact Or.inr ⟨_, _, e1⟩
    · exact Or.inr ⟨_, _, e1⟩
    · exact Or.inr ⟨_, _, e1⟩

theorem poke_safe {b : B} {l : List Nat} (h : Rep b l) (p : Nat) (bytes : List Nat) (hp : p + bytes.length ≤ l.length) :
    ∃ b' l', poke b (some p) bytes = some b' ∧ Rep b' l' ∧ l'.length = l.length ∧ capacity b' = capacity b := by
  unfold poke
  by_cases hb : bytes = []
  · rw [if_pos hb]; exact ⟨b, l, rfl, h, rfl, rfl⟩
  · rw [if_neg hb]
    obtain ⟨d, d', e1, e2, e3, e4⟩ := h.put p bytes hp hb
    rw [e1]
    simp only [e2, Option.map_some]
    refine ⟨_, _, rfl, e3, ?_, ?_⟩
    · simp only [List.length_append, List.length_take, List.length_drop]; omega
    · unfold capacity; rw [e1]; exact e4

/-- Writing at the target of an item, which is null if the item has no bytes. -/
theorem poke_dst {b : B} {l : List Nat} (h : Rep b l) (dst : Option Nat) (bytes : List Nat) (n : Nat) (hb : bytes.length = n)
    (hd : n = 0 ∨ ∃ p, dst = some p ∧ p + n ≤ l.length) :
    ∃ b' l', poke b dst bytes = some b' ∧ Rep b' l' ∧ l'.length = l.length ∧ capacity b' = capacity b := by
  rcases hd with hn | ⟨p, rfl, hp⟩
  · have : bytes = [] := List.eq_nil_of_length_eq_zero (by omega)
    subst this
    exact ⟨b, l, by simp [poke], h, rfl, rfl⟩
  · exact poke_safe h p bytes (by omega)

theorem putInt_safe (big : Bool) (size p : Nat) (n : Nat) : ∀ (i : Nat) (value : Int) (b : B) (l : List Nat), Rep b l → i + n = size → p + size ≤ l.length →
    ∃ b' l', putInt big size (some p) n i value b = some b' ∧ Rep b' l' ∧ l'.length = l.length ∧ capacity b' = capacity b := by
  induction n with
  | zero => intro i value b l h _ _; exact ⟨b, l, rfl, h, rfl, rfl⟩
  | succ n ih =>
    intro i value b l h hi hp
    rw [putInt]
    simp only [adv, Option.map_some]
    obtain ⟨b1, l1, e1, e2, e3, e4⟩ := poke_safe h (p + if big = true then size - 1 - i else i) [(value % 256).toNat]
      (by rw [List.length_singleton]; split <;> omega)
    rw [e1]
    simp only
    obtain ⟨b2, l2, f1, f2, f3, f4⟩ := ih (i + 1) (value / 256) b1 l1 e2 (by omega) (by omega)
    exact ⟨b2, l2, f1, f2, by omega, by omega⟩

theorem strBytes_length (k : Kind) (codes bytes : List Nat) (hv : ValidStr (.str k codes)) (h : strBytes k codes = some bytes) : bytes.length < 2147483648 := by
  by_cases he : Encodable k codes
  · rw [strBytes_spec k codes he] at h
    simp only [Option.some.injEq] at h
    subst h
    have : ∀ cs : List Nat, (cs.flatMap utf8).length ≤ 6 * cs.length := by
      intro cs
      induction cs with
      | nil => simp
      | cons c cs ih =>
        rw [List.flatMap_cons, List.length_append, List.length_cons]
        have : (utf8 c).length ≤ 6 := by
          unfold utf8
          repeat' split
          all_goals simp
        omega
    have h1 := this codes
    have h2 := hv.1
    omega
  · exfalso
    have hk : ∃ c ∈ codes, 2097152 ≤ c := by
      apply Classical.byContradiction
      intro hn
      apply he
      intro c hc
      refine ⟨hv.2 c hc, ?_⟩
      cases Nat.lt_or_ge c 2097152 with
      | inl h => exact h
      | inr h => exact absurd ⟨c, hc, h⟩ hn
    have hkind : k = .e32 := by
      obtain ⟨c, hc, h32⟩ := hk
      have := hv.2 c hc
      cases k with
      | e32 => rfl
      | _ => simp [Kind.bound] at this; omega
    subst hkind
    unfold strBytes at h
    rw [if_neg (by rintro rfl; simp at hk), C05_too_large_refused codes hk] at h
    simp at h

/-- The outcome of packing values which have room. -/
def SafeOut (len : Nat) (o : Out PSt) : Prop :=
  o ≠ .bad ∧ ∀ st, o = .ok st → ∃ l, Rep st.buf l ∧ l.length = len ∧ capacity st.buf < 2147483648

theorem packOne_safe (fl : Floats) (env : Nat → Env) (f : Fmt) (hf : f ≠ .x) (n : Nat) (big : Bool) (st : PSt) (l : List Nat) (hr : Rep st.buf l)
    (hc : capacity st.buf < 2147483648) (dst : Option Nat) (hd : n = 0 ∨ ∃ p, dst = some p ∧ p + n ≤ l.length) (v : Val) :
    SafeOut l.length (packOne fl env f (some n) big st dst v) := by
  have stay : ∀ (b' : B) (l' : List Nat) (i t : Nat), Rep b' l' → l'.length = l.length → capacity b' = capacity st.buf →
      SafeOut l.length (.ok ⟨b', i, t⟩) := by
    intro b' l' i t h1 h2 h3
    refine ⟨by simp, ?_⟩
    intro st' he
    simp only [Out.ok.injEq] at he
    subst he
    exact ⟨l', h1, h2, by show capacity b' < _; omega⟩
  have raised : ∀ st' : PSt, SafeOut l.length (.raise st') := fun st' => ⟨by simp, by simp⟩
  have ints : ∀ k : Int, ∃ b' l', putInt big n dst n 0 k st.buf = some b' ∧ Rep b' l' ∧ l'.length = l.length ∧ capacity b' = capacity st.buf := by
    intro k
    rcases hd with rfl | ⟨p, rfl, hp⟩
    · exact ⟨st.buf, l, rfl, hr, rfl, rfl⟩
    · exact putInt_safe big n p n 0 k st.buf l hr (by omega) hp
  have pads : ∀ (src : List Nat) (c : Nat), src.length = c → c ≤ n → ∃ b' l', poke st.buf dst (src ++ List.replicate (n - c) 0) = some b' ∧
      Rep b' l' ∧ l'.length = l.length ∧ capacity b' = capacity st.buf := by
    intro src c h1 h2
    exact poke_dst hr dst _ n (by simp; omega) hd
  cases f with
  | x => exact absurd rfl hf
  | u | i =>
    simp only [packOne]
    cases intArg fl v with
    | none => exact raised _
    | some k =>
      obtain ⟨b', l', e1, e2, e3, e4⟩ := ints k
      simp only [e1]
      exact stay b' l' _ _ e2 e3 e4
  | f =>
    simp only [packOne]
    cases floatArg fl v with
    | none => exact raised _
    | some x =>
      simp only
      obtain ⟨b', l', e1, e2, e3, e4⟩ := ints (if n = 4 then (fl.to32 x : Int) else (x : Int))
      simp only [e1]
      exact stay b' l' _ _ e2 e3 e4
  | b =>
    simp only [packOne]
    cases v with
    | buf src =>
      obtain ⟨b', l', e1, e2, e3, e4⟩ := pads (src.take (if n > src.length then src.length else n)) (if n > src.length then src.length else n)
        (by rw [List.length_take]; split <;> omega) (by split <;> omega)
      simp only [e1]
      exact stay b' l' _ _ e2 e3 e4
    | self =>
      have hle : ∀ c, selfCopy dst c ≤ c := by
        intro c
        unfold selfCopy
        cases dst with
        | none => simp
        | some d => simp only; split <;> omega
      have hsz := hr.size
      have h1 := hle (if n > st.buf.size then st.buf.size else n)
      generalize selfCopy dst (if n > st.buf.size then st.buf.size else n) = c at h1 ⊢
      have hcl : c ≤ l.length ∧ c ≤ n := by split at h1 <;> omega
      have hfirst : firstBytes st.buf c = some (l.take c) := by
        unfold firstBytes
        by_cases hc0 : c = 0
        · rw [if_pos hc0, hc0]; rfl
        · rw [if_neg hc0]
          obtain ⟨d, g1, g2⟩ := hr.get 0 c (by omega) (by omega)
          rw [g1]
          simpa using g2
      simp only [hfirst]
      obtain ⟨b', l', e1, e2, e3, e4⟩ := pads (l.take c) c (by rw [List.length_take]; omega) hcl.2
      rw [e1]
      exact stay b' l' _ _ e2 e3 e4
    | _ => exact raised _
  | s =>
    simp only [packOne]
    cases v with
    | str k codes =>
      simp only []
      cases strBytes k codes with
      | none => exact raised _
      | some bytes =>
        simp only []
        split
        · exact raised _
        · obtain ⟨b', l', e1, e2, e3, e4⟩ := pads (bytes.take (if n > bytes.length then bytes.length else n)) (if n > bytes.length then bytes.length else n)
            (by rw [List.length_take]; split <;> omega) (by split <;> omega)
          rw [e1]
          exact stay b' l' _ _ e2 e3 e4
    | _ => exact raised _

theorem packOne_all_safe (fl : Floats) (env : Nat → Env) (hm : SmallMemory env) (big : Bool) (st : PSt) (l : List Nat) (hr : Rep st.buf l)
    (hc : capacity st.buf < 2147483648) (dst : Option Nat) (v : Val) (hv : ValidStr v) :
    packOne fl env .s none big st dst v ≠ .bad ∧ ∀ st', packOne fl env .s none big st dst v = .ok st' → Fine st' := by
  simp only [packOne]
  cases v with
  | str k codes =>
    simp only []
    cases hs : strBytes k codes with
    | none => simp
    | some bytes =>
      simp only []
      split
      · simp
      · have hb := strBytes_length k codes bytes hv hs
        rcases room_safe env hm (st.t + 1) st.buf l hr hc bytes.length hb with ⟨b', j, e1, e2, e3, e4⟩ | ⟨e, b', e1⟩
        · simp only [e1]
          obtain ⟨b2, l2, f1, f2, f3, f4⟩ := poke_safe e3 l.length bytes (by rw [List.length_append]; omega)
          simp only [f1]
          refine ⟨by simp, fun st' he => ?_⟩
          simp only [Out.ok.injEq] at he
          subst he
          exact ⟨l2, f2, by show capacity b2 < _; omega⟩
        · simp only [e1]; simp
  | _ => simp

theorem packLoop_safe (fl : Floats) (env : Nat → Env) (data : List Val) (f : Fmt) (hf : f ≠ .x) (n : Nat) (big : Bool) (k : Nat) :
    ∀ (dst : Option Nat) (st : PSt) (l : List Nat), Rep st.buf l → capacity st.buf < 2147483648 → (n = 0 ∨ ∃ p, dst = some p ∧ p + n * k ≤ l.length) →
      SafeOut l.length (packLoop fl env data f (some n) big k dst st) := by
  induction k with
  | zero =>
    intro dst st l hr hc _
    refine ⟨by simp [packLoop], fun st' he => ?_⟩
    simp only [packLoop, Out.ok.injEq] at he
    subst he
    exact ⟨l, hr, rfl, hc⟩
  | succ k ih =>
    intro dst st l hr hc hd
    rw [packLoop]
    cases data[st.idx]? with
    | none => exact ⟨by simp, by simp⟩
    | some v =>
      simp only []
      have h1 := packOne_safe fl env f hf n big { st with idx := st.idx + 1 } l hr hc dst
        (by rcases hd with h | ⟨p, h1, h2⟩
            · exact Or.inl h
            · exact Or.inr ⟨p, h1, by rw [Nat.mul_succ] at h2; omega⟩) v
      cases ho : packOne fl env f (some n) big { st with idx := st.idx + 1 } dst v with
      | bad => exact absurd ho h1.1
      | raise st' => exact ⟨by simp, by simp⟩
      | ok st' =>
        simp only
        obtain ⟨l', e1, e2, e3⟩ := h1.2 st' ho
        have := ih (adv dst n) st' l' e1 e3
          (by rcases hd with h | ⟨p, h1, h2⟩
              · exact Or.inl h
              · exact Or.inr ⟨p + n, by rw [h1]; rfl, by rw [Nat.mul_succ] at h2; omega⟩)
        rw [e2] at this
        exact this

theorem packLoop_all_safe (fl : Floats) (env : Nat → Env) (hm : SmallMemory env) (data : List Val) (hv : ∀ v ∈ data, ValidStr v) (big : Bool) (k : Nat) :
    ∀ (dst : Option Nat) (st : PSt), Fine st →
      packLoop fl env data .s none big k dst st ≠ .bad ∧ ∀ st', packLoop fl env data .s none big k dst st = .ok st' → Fine st' := by
  induction k with
  | zero =>
    intro dst st h
    exact ⟨by simp [packLoop], fun st' he => by simp only [packLoop, Out.ok.injEq] at he; subst he; exact h⟩
  | succ k ih =>
    intro dst st h
    obtain ⟨l, hr, hc⟩ := h
    rw [packLoop]
    cases hd : data[st.idx]? with
    | none => simp
    | some v =>
      simp only []
      have h1 := packOne_all_safe fl env hm big { st with idx := st.idx + 1 } l hr hc dst v (hv v (List.mem_of_getElem? hd))
      cases ho : packOne fl env .s none big { st with idx := st.idx + 1 } dst v with
      | bad => exact absurd ho h1.1
      | raise st' => simp
      | ok st' => exact ih _ st' (h1.2 st' ho)

/-- What the parser guarantees about an item. -/
def Shaped (f : Fmt) (size : Option Nat) : Prop := (size = none → f = .s) ∧ (f = .x → size = some 1)

theorem packItem_safe (fl : Floats) (env : Nat → Env) (hm : SmallMemory env) (data : List Val) (hv : ∀ v ∈ data, ValidStr v) (st : PSt) (h : Fine st)
    (f : Fmt) (size : Option Nat) (k : Nat) (big : Bool) (hf : Shaped f size) (hs : ∀ n, size = some n → n * k < 2147483648) :
    packItem fl env data st ⟨f, size, k, big⟩ ≠ .bad ∧ ∀ st', packItem fl env data st ⟨f, size, k, big⟩ = .ok st' → Fine st' := by
  obtain ⟨l, hr, hc⟩ := h
  have values : ∀ (st : PSt) (l : List Nat) (dst : Option Nat) (n : Nat), size = some n → Rep st.buf l → capacity st.buf < 2147483648 →
      (n = 0 ∨ k = 0 ∨ ∃ p, dst = some p ∧ p + n * k ≤ l.length) →
      packValues fl env data st dst ⟨f, size, k, big⟩ ≠ .bad ∧ ∀ st', packValues fl env data st dst ⟨f, size, k, big⟩ = .ok st' → Fine st' := by
    intro st l dst n hsz hr hc hd
    have loop : f ≠ .x → packLoop fl env data f size big k dst st ≠ .bad ∧ ∀ st', packLoop fl env data f size big k dst st = .ok st' → Fine st' := by
      intro hx
      rw [hsz]
      have : SafeOut l.length (packLoop fl env data f (some n) big k dst st) := by
        rcases hd with h | h | h
        · exact packLoop_safe fl env data f hx n big k dst st l hr hc (Or.inl h)
        · rw [h]
          refine ⟨by simp [packLoop], fun st' he => ?_⟩
          simp only [packLoop, Out.ok.injEq] at he
          subst he
          exact ⟨l, hr, rfl, hc⟩
        · exact packLoop_safe fl env data f hx n big k dst st l hr hc (Or.inr h)
      exact ⟨this.1, fun st' he => by obtain ⟨l', a, _, c⟩ := this.2 st' he; exact ⟨l', a, c⟩⟩
    unfold packValues
    cases f with
    | x =>
      simp only []
      cases dst with
      | none => exact ⟨by simp, fun st' he => by simp only [Out.ok.injEq] at he; subst he; exact ⟨l, hr, hc⟩⟩
      | some p =>
        simp only []
        have hn1 : n = 1 := by have := hf.2 rfl; rw [hsz] at this; simpa using this
        obtain ⟨b', l', e1, e2, e3, e4⟩ := poke_dst hr (some p) (List.replicate k 0) k (by simp)
          (by rcases hd with h | h | ⟨q, h1, h2⟩
              · omega
              · exact Or.inl h
              · exact Or.inr ⟨q, h1, by rw [hn1] at h2; omega⟩)
        simp only [e1]
        refine ⟨by simp, fun st' he => ?_⟩
        simp only [Out.ok.injEq] at he
        subst he
        exact ⟨l', e2, by show capacity b' < _; omega⟩
    | _ =>
      simp only []
      split
      · simp
      · split
        · simp
        · split
          · simp
          · exact loop (by simp)
  cases size with
  | none =>
    have hs' : f = .s := hf.1 rfl
    subst hs'
    simp only [packItem, packValues]
    split
    · simp
    · split
      · simp
      · split
        · simp
        · exact packLoop_all_safe fl env hm data hv big k none st ⟨l, hr, hc⟩
  | some n =>
    simp only [packItem]
    by_cases hz : n ≠ 0 ∧ k ≠ 0
    · rw [if_pos hz, Nat.mod_eq_of_lt (by have := hs n rfl; omega)]
      rcases room_safe env hm st.t st.buf l hr hc (n * k) (hs n rfl) with ⟨b', j, e1, e2, e3, e4⟩ | ⟨e, b', e1⟩
      · simp only [e1]
        exact values _ (l ++ j) (some l.length) n rfl e3 e4 (Or.inr (Or.inr ⟨_, rfl, by rw [List.length_append]; omega⟩))
      · simp only [e1]; simp
    · rw [if_neg hz]
      exact values st l none n rfl hr hc (by omega)

theorem toksText_shaped {toks : List Tok} {f : Fmt} {size : Option Nat} {k : Nat} {t rest : List Nat} (h : ToksText (toks ++ [.item f size k]) t rest) :
    Shaped f size := by
  obtain ⟨_, t1, _, h1⟩ := toksText_last h
  cases h1 with
  | item _ _ _ sp cl body _ _ _ hb =>
    cases hb with
    | pad => exact ⟨by simp, by simp⟩
    | sized _ n ds _ hf _ _ => exact ⟨by simp, fun h => absurd h hf⟩
    | all => exact ⟨by simp, by simp⟩

/-- `pack` stays inside of the storage of the buffer, for every format string and all arguments, and every buffer (also read-only ones and
ones with external storage); and the buffer is in order afterwards.

Partial: leaves out formats in which the size of an item times its count is 2^31 or more, and systems with blocks of 2^31 bytes (see C20);
both are violations. -/
theorem C58_partial (fl : Floats) (env : Nat → Env) (hm : SmallMemory env) (b : B) (l : List Nat) (hr : Rep b l) (hc : capacity b < 2147483648)
    (fmt : List Nat) (hf : NoOverflow 2147483648 fmt) (args : Args) (hv : ∀ v ∈ (start args).1, ValidStr v) :
    pack fl env b fmt args ≠ .bad ∧ ∀ st, pack fl env b fmt args = .ok st → ∃ l', Rep st.buf l' := by
  unfold pack
  have key := process_safe (packItem fl env (start args).1) Fine
    (fun tok => ∀ f size k, tok = .item f size k → Shaped f size ∧ ∀ n, size = some n → n * k < 2147483648) fmt
    (by
      rintro toks tok t rest e1 e2 f size k rfl
      refine ⟨toksText_shaped e2, ?_⟩
      rintro n rfl
      exact hf toks f n k t rest e1 e2)
    (by
      intro st f size n big hg hsm
      obtain ⟨h1, h2⟩ := hsm f size n rfl
      exact packItem_safe fl env hm (start args).1 hv st hg f size n big h1 h2)
    (fmt.length + 1) [] [] fmt false ⟨b, (start args).2, 0⟩ rfl (.nil _) ⟨l, hr, hc⟩ (by omega)
  exact ⟨key.1, fun st he => by obtain ⟨l', h1, _⟩ := key.2 st he; exact ⟨l', h1⟩⟩

/-! ### Violations -/

theorem poke_bad (b : B) (p : Nat) (bytes : List Nat) (h : capacity b < p + bytes.length) (hb : bytes ≠ []) : poke b (some p) bytes = none := by
  unfold poke
  rw [if_neg hb]
  unfold capacity at h
  cases hd : b.data with
  | none => rfl
  | some d =>
    rw [hd] at h
    simp only [] at h ⊢
    unfold Buf.putBytes
    rw [if_neg (by omega)]
    rfl

/-- An empty buffer packed into `n` bytes, where there are fewer. -/
theorem packOne_bad (fl : Floats) (env : Nat → Env) (st : PSt) (p n : Nat) (h : capacity st.buf < p + n) (hn : 0 < n) :
    packOne fl env .b (some n) false st (some p) (.buf []) = .bad := by
  have hl : (List.take (if n > ([] : List Nat).length then ([] : List Nat).length else n) [] ++
      List.replicate (n - if n > ([] : List Nat).length then ([] : List Nat).length else n) 0).length = n := by
    rw [if_pos (by exact hn)]; simp
  simp only [packOne]
  rw [poke_bad st.buf p _ (by rw [hl]; exact h) (by intro e; rw [e] at hl; simp at hl; omega)]

theorem violating_format {σ : Type} (h : σ → Call → Out σ) (st : σ) :
    process h 13 false [50, 98, 50, 49, 52, 55, 52, 56, 51, 54, 52, 56] st = match h st ⟨.b, some 2147483648, 2, false⟩ with
      | .ok st => .ok st
      | .raise st => .raise st
      | .bad => .bad := by
  simp [process, skipSpaces, skipLoop, isSpace, countAndChar, getCount, countLoop, isDigit, act, sized]
  cases h st ⟨.b, some 2147483648, 2, false⟩ <;> rfl

theorem packItem_bad (fl : Floats) (env : Nat → Env) (d : List Nat) (hd : d.length = 1023) (n : Nat) (hn : 1024 ≤ n) (hw : n * 2 % 4294967296 = 0) :
    packItem fl env [.other, .buf [], .buf []] ⟨⟨1, false, false, some (7 :: d)⟩, 1, 0⟩ ⟨.b, some n, 2, false⟩ = .bad := by
  have hc : capacity ⟨1, false, false, some (7 :: d)⟩ = 1024 := by simp [capacity, hd]
  have e1 : makeRoom (env 0) ⟨1, false, false, some (7 :: d)⟩ 0 = .ok 1 ⟨1, false, false, some (7 :: d)⟩ := by
    unfold makeRoom
    rw [hc]
    rfl
  simp only [packItem]
  rw [if_pos ⟨by omega, by decide⟩, hw, e1]
  simp only [packValues]
  rw [if_neg (by simp), if_neg (by simp), if_neg (by simp), packLoop]
  have e2 : ([Val.other, .buf [], .buf []] : List Val)[1]? = some (.buf []) := rfl
  simp only [e2]
  rw [packOne_bad _ _ _ 1 n (by show capacity ⟨1, false, false, some (7 :: d)⟩ < _; rw [hc]; omega) (by omega)]

/-- The format "2b2147483648" with two empty buffers, packed into a buffer of one byte: the size times the count is 0 in 32-bit
arithmetic, so no room is made, and then 2^31 bytes are written. -/
theorem C58_violated : ¬ C58_full := by
  intro h
  obtain ⟨d, hd⟩ : ∃ d : List Nat, d.length = 1023 := ⟨_, List.length_replicate (a := 7)⟩
  let env : Nat → Env := fun _ => ⟨fun _ => true, fun _ => 0⟩
  have hc : capacity ⟨1, false, false, some (7 :: d)⟩ = 1024 := by simp [capacity, hd]
  refine h anyFloats env ⟨1, false, false, some (7 :: d)⟩ [7] [50, 98, 50, 49, 52, 55, 52, 56, 51, 54, 52, 56] (.values [.buf [], .buf []])
    ⟨rfl, Or.inr ⟨d, rfl⟩, by rw [hc]; decide, by intro _; rw [hc]⟩ (by decide)
    (by intro v hv; simp only [start, List.mem_cons, List.not_mem_nil, or_false] at hv; rcases hv with rfl | rfl | rfl <;> exact trivial) ?_
  unfold pack
  rw [show [50, 98, 50, 49, 52, 55, 52, 56, 51, 54, 52, 56].length + 1 = 13 from rfl, violating_format]
  simp only [start]
  rw [packItem_bad anyFloats env d hd 2147483648 (by decide) (by decide)]

/-- Room for two numbers is made, but there is only one. -/
example :
    (match pack anyFloats (fun _ => ⟨fun c => decide (c < 2147483648), fun _ => 0⟩) ⟨1, false, false, some (List.replicate 64 7)⟩
        [50, 120, 32, 50, 105, 50] (.array [.int 1]) with
      | .raise st => (st.buf.size, capacity st.buf, st.buf.data.map (List.take 4))
      | _ => (0, 0, none)) = (7, 256, some [7, 0, 0, 0]) := by decide +kernel

end Verif.Props
