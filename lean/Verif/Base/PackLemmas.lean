import Verif.Base.PackSpec

/-
`pack` writes the bytes of the specification.
-/
set_option linter.constructorNameAsVariable false

namespace Verif.Base.Pack

open Verif.Buf (B Env Rep makeRoom capacity)
open Verif.Utf8 (Kind utf8 stringToUtf8)
open Verif.Props (Encodable C05_encode)

theorem poke_spec {b : B} {l : List Nat} (h : Rep b l) (hro : b.ro = false) (hx : b.ext = false) (p : Nat) (bytes : List Nat)
    (hp : p + bytes.length ≤ l.length) :
    ∃ b', poke b (some p) bytes = some b' ∧ Rep b' (l.take p ++ bytes ++ l.drop (p + bytes.length)) ∧ b'.ro = false ∧ b'.ext = false := by
  unfold poke
  by_cases hb : bytes = []
  · rw [if_pos hb]
    subst hb
    exact ⟨b, rfl, by simpa using h, hro, hx⟩
  · rw [if_neg hb]
    obtain ⟨d, d', e1, e2, e3, _⟩ := h.put p bytes hp hb
    rw [e1]
    simp only [e2, Option.map_some]
    exact ⟨_, rfl, e3, hro, hx⟩

theorem poke_mid {b : B} {A M C : List Nat} (h : Rep b (A ++ M ++ C)) (hro : b.ro = false) (hx : b.ext = false) (bytes : List Nat)
    (hl : bytes.length = M.length) (p : Nat) (hp : p = A.length) :
    ∃ b', poke b (some p) bytes = some b' ∧ Rep b' (A ++ bytes ++ C) ∧ b'.ro = false ∧ b'.ext = false := by
  subst hp
  obtain ⟨b', e1, e2, e3, e4⟩ := poke_spec h hro hx A.length bytes (by simp; omega)
  refine ⟨b', e1, ?_, e3, e4⟩
  have e : List.take A.length (A ++ M ++ C) = A ∧ List.drop (A.length + bytes.length) (A ++ M ++ C) = C := by
    rw [hl]
    constructor
    · rw [List.append_assoc]; simp
    · rw [← List.length_append]; simp
  rw [e.1, e.2] at e2
  exact e2

theorem putInt_le (size : Nat) (n : Nat) : ∀ (i : Nat) (value : Int) (b : B) (A T R C : List Nat), Rep b (A ++ T ++ R ++ C) → b.ro = false →
    b.ext = false → T.length = i → R.length = n →
    ∃ b', putInt false size (some A.length) n i value b = some b' ∧ Rep b' (A ++ T ++ leBytes n value ++ C) ∧ b'.ro = false ∧ b'.ext = false := by
  induction n with
  | zero =>
    intro i value b A T R C h hro hx hT hR
    have : R = [] := List.eq_nil_of_length_eq_zero hR
    subst this
    exact ⟨b, rfl, h, hro, hx⟩
  | succ n ih =>
    intro i value b A T R C h hro hx hT hR
    obtain ⟨r, R', rfl⟩ : ∃ r R', R = r :: R' := by
      cases R with
      | nil => simp at hR
      | cons r R' => exact ⟨r, R', rfl⟩
    have h' : Rep b ((A ++ T) ++ [r] ++ (R' ++ C)) := by simpa using h
    obtain ⟨b', e1, e2, e3, e4⟩ := poke_mid h' hro hx [(value % 256).toNat] rfl (A.length + i) (by simp [hT])
    rw [putInt]
    simp only [Bool.false_eq_true, if_false, adv, Option.map_some]
    rw [e1]
    simp only
    obtain ⟨b'', f1, f2, f3, f4⟩ := ih (i + 1) (value / 256) b' A (T ++ [(value % 256).toNat]) R' C (by simpa using e2) e3 e4 (by simp [hT])
      (by simpa using hR)
    refine ⟨b'', f1, ?_, f3, f4⟩
    rw [leBytes_succ]
    simpa using f2

theorem putInt_be (size : Nat) (n : Nat) : ∀ (i : Nat) (value : Int) (b : B) (A T R C : List Nat), Rep b (A ++ R ++ T ++ C) → b.ro = false →
    b.ext = false → T.length = i → R.length = n → i + n = size →
    ∃ b', putInt true size (some A.length) n i value b = some b' ∧ Rep b' (A ++ (leBytes n value).reverse ++ T ++ C) ∧ b'.ro = false ∧
      b'.ext = false := by
  induction n with
  | zero =>
    intro i value b A T R C h hro hx hT hR _
    have : R = [] := List.eq_nil_of_length_eq_zero hR
    subst this
    exact ⟨b, rfl, h, hro, hx⟩
  | succ n ih =>
    intro i value b A T R C h hro hx hT hR hs
    obtain ⟨R', r, rfl⟩ : ∃ R' r, R = R' ++ [r] := by
      rcases List.eq_nil_or_concat R with e | ⟨R', r, e⟩
      · subst e; simp at hR
      · exact ⟨R', r, by simpa using e⟩
    rw [List.length_append, List.length_singleton] at hR
    have h' : Rep b ((A ++ R') ++ [r] ++ (T ++ C)) := by simpa using h
    obtain ⟨b', e1, e2, e3, e4⟩ := poke_mid h' hro hx [(value % 256).toNat] rfl (A.length + (size - 1 - i)) (by simp; omega)
    rw [putInt]
    simp only [if_true, adv, Option.map_some]
    rw [e1]
    simp only
    obtain ⟨b'', f1, f2, f3, f4⟩ := ih (i + 1) (value / 256) b' A ((value % 256).toNat :: T) R' C (by simpa using e2) e3 e4 (by simp [hT])
      (by omega) (by omega)
    refine ⟨b'', f1, ?_, f3, f4⟩
    rw [leBytes_succ]
    simpa using f2

theorem putInt_spec (big : Bool) (n : Nat) (value : Int) (b : B) (A M C : List Nat) (h : Rep b (A ++ M ++ C)) (hro : b.ro = false) (hx : b.ext = false)
    (hM : M.length = n) :
    ∃ b', putInt big n (some A.length) n 0 value b = some b' ∧ Rep b' (A ++ ordered big (leBytes n value) ++ C) ∧ b'.ro = false ∧
      b'.ext = false := by
  cases big with
  | false =>
    obtain ⟨b', e1, e2, e3, e4⟩ := putInt_le n n 0 value b A [] M C (by simpa using h) hro hx rfl hM
    exact ⟨b', e1, by simpa [ordered] using e2, e3, e4⟩
  | true =>
    obtain ⟨b', e1, e2, e3, e4⟩ := putInt_be n n 0 value b A [] M C (by simpa using h) hro hx rfl hM (by omega)
    exact ⟨b', e1, by simpa [ordered] using e2, e3, e4⟩

/-! ### Items -/

/-- Memory was refused at some time. -/
def Refused (env : Nat → Env) : Prop := ∃ t c, (env t).mem c = false

/-- The state after some values. -/
structure After (st : PSt) (idx : Nat) (l : List Nat) : Prop where
  rep : Rep st.buf l
  ro  : st.buf.ro = false
  ext : st.buf.ext = false
  idx : st.idx = idx

theorem strBytes_spec (k : Kind) (codes : List Nat) (h : Encodable k codes) : strBytes k codes = some (codes.flatMap utf8) := by
  unfold strBytes
  by_cases hc : codes = []
  · rw [if_pos hc, hc]; rfl
  · rw [if_neg hc, C05_encode k codes h]; rfl

theorem One.length {fl : Floats} {big : Bool} {f : Fmt} {n : Nat} {v : Val} {cur bytes : List Nat} {back : Val}
    (h : One fl big f (some n) v cur bytes back) : bytes.length = n := by
  generalize hs : some n = size at h
  cases h <;> simp only [Option.some.injEq, reduceCtorEq] at hs <;> subst hs <;>
    simp only [ordered_length, leBytes_length, List.length_take, List.length_append, zeros, List.length_replicate] <;> omega

theorem self_bytes (cur junk : List Nat) (n : Nat) (dst : Option Nat) (hd : n = 0 ∨ dst = some cur.length) (hj : n ≤ junk.length)
    (hn : cur ≠ [] ∨ n = 0) :
    let copy := selfCopy dst (if n > (cur ++ junk).length then (cur ++ junk).length else n)
    copy = min n cur.length ∧ (cur ++ junk).take copy ++ List.replicate (n - copy) 0 = (cur ++ zeros n).take n := by
  intro copy
  have h1 : copy = min n cur.length := by
    show selfCopy dst _ = _
    rw [if_neg (by rw [List.length_append]; omega)]
    unfold selfCopy
    rcases hd with rfl | rfl
    · cases dst with
      | none => simp
      | some d => simp
    · simp only
      rcases hn with hn | rfl
      · have := List.length_pos_iff.mpr hn
        split <;> omega
      · simp
  refine ⟨h1, ?_⟩
  rw [h1, List.take_append_of_le_length (by omega), List.take_append]
  congr 1
  · rw [List.take_eq_take_iff]; omega
  · unfold zeros
    rw [List.take_replicate]
    congr 1
    omega

/-- One value with a size: room has been made. -/
theorem packOne_sized (fl : Floats) (env : Nat → Env) (f : Fmt) (n : Nat) (big : Bool) (st : PSt) (dst : Option Nat) (v : Val)
    (cur junk bytes : List Nat) (back : Val) (idx : Nat) (h : One fl big f (some n) v cur bytes back) (ha : After st idx (cur ++ junk))
    (hj : n ≤ junk.length) (hd : n = 0 ∨ dst = some cur.length) :
    (∃ st', packOne fl env f (some n) big st dst v = .ok st' ∧ After st' idx (cur ++ bytes ++ junk.drop n)) ∨
    (∃ st', packOne fl env f (some n) big st dst v = .raise st' ∧ Refused env) := by
  have hlen := h.length
  have hrep : Rep st.buf (cur ++ junk.take n ++ junk.drop n) := by
    have := ha.rep
    rw [List.append_assoc, List.take_append_drop]
    exact this
  have htake : (junk.take n).length = n := by rw [List.length_take]; omega
  have putI : ∀ (value : Int), n ≠ 0 → ∃ b', putInt big n dst n 0 value st.buf = some b' ∧
      After { st with buf := b' } idx (cur ++ ordered big (leBytes n value) ++ junk.drop n) := by
    intro value hn
    have hd' : dst = some cur.length := hd.resolve_left hn
    subst hd'
    obtain ⟨b', e1, e2, e3, e4⟩ := putInt_spec big n value st.buf cur (junk.take n) (junk.drop n) hrep ha.ro ha.ext htake
    exact ⟨b', e1, ⟨e2, e3, e4, ha.idx⟩⟩
  have putB : ∀ bs : List Nat, bs.length = n → ∃ b', poke st.buf dst bs = some b' ∧
      After { st with buf := b' } idx (cur ++ bs ++ junk.drop n) := by
    intro bs hbs
    rcases hd with hd' | hd'
    · have : bs = [] := List.eq_nil_of_length_eq_zero (by omega)
      subst this
      subst hd'
      exact ⟨st.buf, rfl, ⟨by simpa using ha.rep, ha.ro, ha.ext, ha.idx⟩⟩
    · subst hd'
      obtain ⟨b', e1, e2, e3, e4⟩ := poke_mid hrep ha.ro ha.ext bs (by omega) cur.length rfl
      exact ⟨b', e1, ⟨e2, e3, e4, ha.idx⟩⟩
  have intA : ∀ k, IntArg fl v k → intArg fl v = some k := by
    rintro k ⟨rfl | ⟨x, rfl, e⟩, _⟩
    · rfl
    · exact e
  have fltA : ∀ x, FloatArg fl v x → floatArg fl v = some x := by
    rintro x ⟨rfl | ⟨k, rfl, e⟩, _⟩
    · rfl
    · simp [floatArg, e]
  have goI : ∀ k, IntArg fl v k → n ≠ 0 → ∀ f, f = .u ∨ f = .i →
      ∃ st', packOne fl env f (some n) big st dst v = .ok st' ∧ After st' idx (cur ++ ordered big (leBytes n k) ++ junk.drop n) := by
    intro k hk hn f hf
    obtain ⟨b', e1, e2⟩ := putI k hn
    rcases hf with rfl | rfl <;> exact ⟨_, by simp only [packOne, intA k hk, e1], e2⟩
  generalize hs : some n = size at h
  cases h with
  | unsigned v k m cur hk hm =>
    simp only [Option.some.injEq] at hs; subst hs
    exact Or.inl (goI k hk (by omega) .u (Or.inl rfl))
  | unsigned8 v k cur hk =>
    simp only [Option.some.injEq] at hs; subst hs
    exact Or.inl (goI k hk (by omega) .u (Or.inl rfl))
  | signed v k m cur hk hm =>
    simp only [Option.some.injEq] at hs; subst hs
    exact Or.inl (goI k hk (by omega) .i (Or.inr rfl))
  | single v x cur hx h32 =>
    simp only [Option.some.injEq] at hs; subst hs
    obtain ⟨b', e1, e2⟩ := putI (fl.to32 x) (by omega)
    exact Or.inl ⟨_, by simp only [packOne, fltA x hx, if_true, e1], e2⟩
  | double v x cur hx =>
    simp only [Option.some.injEq] at hs; subst hs
    obtain ⟨b', e1, e2⟩ := putI x (by omega)
    exact Or.inl ⟨_, by simp only [packOne, fltA x hx]; rw [if_neg (by decide)]; simp only [e1], e2⟩
  | bytes src m cur =>
    simp only [Option.some.injEq] at hs; subst hs
    have e : src.take (if n > src.length then src.length else n) ++ List.replicate (n - if n > src.length then src.length else n) 0 =
        (src ++ zeros n).take n := by
      rw [List.take_append]
      congr 1
      · rw [List.take_eq_take_iff]; split <;> omega
      · unfold zeros; rw [List.take_replicate]; congr 1; split <;> omega
    obtain ⟨b', e1, e2⟩ := putB _ hlen
    exact Or.inl ⟨_, by simp only [packOne, e, e1], e2⟩
  | self m cur hne =>
    simp only [Option.some.injEq] at hs; subst hs
    obtain ⟨e1, e2⟩ := self_bytes cur junk n dst hd hj hne
    obtain ⟨b', f1, f2⟩ := putB _ hlen
    have hsz : st.buf.size = (cur ++ junk).length := ha.rep.size
    have hfirst : ∀ c, c ≤ (cur ++ junk).length → firstBytes st.buf c = some ((cur ++ junk).take c) := by
      intro c hc
      unfold firstBytes
      by_cases hc0 : c = 0
      · rw [if_pos hc0, hc0]; rfl
      · rw [if_neg hc0]
        obtain ⟨d, g1, g2⟩ := ha.rep.get 0 c (by omega) (by omega)
        rw [g1]
        simpa using g2
    refine Or.inl ⟨_, ?_, f2⟩
    simp only [packOne, hsz]
    rw [hfirst _ (by rw [e1, List.length_append]; omega)]
    simp only
    rw [e2, f1]
  | text k codes n' m cur hk hm hl =>
    simp only [Option.some.injEq] at hs; subst hs
    simp only [packOne, strBytes_spec k codes hk]
    by_cases hmem : (env st.t).mem ((codes.flatMap utf8).length + 1) = true
    · rw [if_neg (fun h => h hmem)]
      have e : (codes.flatMap utf8).take (if n > (codes.flatMap utf8).length then (codes.flatMap utf8).length else n) ++
          List.replicate (n - if n > (codes.flatMap utf8).length then (codes.flatMap utf8).length else n) 0 =
          codes.flatMap utf8 ++ zeros m := by
        have : (if n > (codes.flatMap utf8).length then (codes.flatMap utf8).length else n) = (codes.flatMap utf8).length := by split <;> omega
        rw [this, List.take_length]
        congr 1
        unfold zeros; congr 1; omega
      obtain ⟨b', e1, e2⟩ := putB _ hlen
      simp only [e, e1]
      exact Or.inl ⟨_, rfl, ⟨e2.rep, e2.ro, e2.ext, e2.idx⟩⟩
    · rw [if_pos hmem]
      exact Or.inr ⟨_, rfl, ⟨_, _, by simpa using hmem⟩⟩
  | textAll => simp at hs

/-- A string without a size. -/
theorem packOne_all (fl : Floats) (env : Nat → Env) (f : Fmt) (big : Bool) (st : PSt) (dst : Option Nat) (v : Val) (cur bytes : List Nat)
    (back : Val) (idx : Nat) (h : One fl big f none v cur bytes back) (ha : After st idx cur) (hl : cur.length + bytes.length ≤ 4294967232) :
    (∃ st', packOne fl env f none big st dst v = .ok st' ∧ After st' idx (cur ++ bytes)) ∨
    (∃ st', packOne fl env f none big st dst v = .raise st' ∧ Refused env) := by
  generalize hs : (none : Option Nat) = size at h
  cases h with
  | textAll k codes cur hk hne h16 =>
    simp only [packOne, strBytes_spec k codes hk]
    by_cases hmem : (env st.t).mem ((codes.flatMap utf8).length + 1) = true
    · rw [if_neg (fun h => h hmem)]
      rcases Buf.makeRoom_spec (env (st.t + 1)) st.buf cur (codes.flatMap utf8).length ha.rep ha.ro (by omega) (Or.inl hl) with
        ⟨b, j, e1, e2, e3, e4, e5, _⟩ | ⟨_, e⟩ | ⟨e1, _, _, c, e2⟩ | ⟨_, _, e, _⟩ | ⟨_, e1, e2, _⟩
      · simp only [e1]
        have e5' : b.ext = false := by rw [e5]; exact ha.ext
        obtain ⟨b', f1, f2, f3, f4⟩ := poke_mid (A := cur) (M := j) (C := []) (by simpa using e3) e4 e5' (codes.flatMap utf8) e2.symm cur.length rfl
        simp only [f1]
        exact Or.inl ⟨_, rfl, ⟨by simpa using f2, f3, f4, ha.idx⟩⟩
      · omega
      · simp only [e1]
        exact Or.inr ⟨_, rfl, ⟨_, c, e2⟩⟩
      · rw [ha.ext] at e; simp at e
      · exfalso
        rcases hne with h | h
        · apply h
          cases codes with
          | nil => rfl
          | cons c cs =>
            rw [List.flatMap_cons, List.length_append] at e2
            have := Utf8.utf8_ne_nil c
            omega
        · exact h e1
    · rw [if_pos hmem]
      exact Or.inr ⟨_, rfl, ⟨_, _, by simpa using hmem⟩⟩
  | _ => simp at hs

theorem Many.length {fl : Floats} {big : Bool} {f : Fmt} {n k : Nat} {vs rest : List Val} {cur bytes : List Nat} {backs : List Val}
    (h : Many fl big f (some n) k vs cur bytes backs rest) : bytes.length = n * k := by
  induction h with
  | zero => rfl
  | succ k v vs cur bytes back bytes' backs rest h1 _ ih => rw [List.length_append, h1.length, ih, Nat.mul_succ]; omega

theorem Many.count {fl : Floats} {big : Bool} {f : Fmt} {size : Option Nat} {k : Nat} {vs rest : List Val} {cur bytes : List Nat} {backs : List Val}
    (h : Many fl big f size k vs cur bytes backs rest) : rest = vs.drop k ∧ k ≤ vs.length := by
  induction h with
  | zero => simp
  | succ k v vs cur bytes back bytes' backs rest h1 _ ih => simp [ih.1]; omega

theorem data_head {data : List Val} {i : Nat} {v : Val} {vs : List Val} (h : data.drop i = v :: vs) : data[i]? = some v ∧ data.drop (i + 1) = vs := by
  constructor
  · have := List.getElem?_drop (xs := data) (i := i) (j := 0)
    rw [h] at this
    simpa using this.symm
  · rw [← List.drop_drop, h]; rfl

theorem packLoop_sized (fl : Floats) (env : Nat → Env) (data : List Val) (f : Fmt) (n : Nat) (big : Bool) {k : Nat} {vs rest : List Val}
    {cur bytes : List Nat} {backs : List Val} (h : Many fl big f (some n) k vs cur bytes backs rest) :
    ∀ (dst : Option Nat) (st : PSt) (idx : Nat) (junk : List Nat), After st idx (cur ++ junk) → junk.length = n * k → data.drop idx = vs →
      (n = 0 ∨ dst = some cur.length) →
      (∃ st', packLoop fl env data f (some n) big k dst st = .ok st' ∧ After st' (idx + k) (cur ++ bytes)) ∨
      (∃ st', packLoop fl env data f (some n) big k dst st = .raise st' ∧ Refused env) := by
  induction h with
  | zero vs cur =>
    intro dst st idx junk ha hj hv hd
    have : junk = [] := List.eq_nil_of_length_eq_zero (by simpa using hj)
    subst this
    exact Or.inl ⟨st, rfl, ha⟩
  | succ k v vs cur bytes back bytes' backs rest h1 h2 ih =>
    intro dst st idx junk ha hj hv hd
    obtain ⟨g1, g2⟩ := data_head hv
    rw [packLoop, ha.idx, g1]
    simp only
    have ha' : After { st with idx := idx + 1 } (idx + 1) (cur ++ junk) := ⟨ha.rep, ha.ro, ha.ext, rfl⟩
    rw [Nat.mul_succ] at hj
    rcases packOne_sized fl env f n big { st with idx := idx + 1 } dst v cur junk bytes back (idx + 1) h1 ha' (by omega) hd with
      ⟨st', e1, e2⟩ | ⟨st', e1, e2⟩
    · simp only [e1]
      have hlen := h1.length
      rcases ih (adv dst n) st' (idx + 1) (junk.drop n) e2 (by rw [List.length_drop]; omega) g2
        (by rcases hd with hd | rfl
            · exact Or.inl hd
            · right; simp [adv, hlen]) with ⟨st'', f1, f2⟩ | ⟨st'', f1, f2⟩
      · exact Or.inl ⟨st'', f1, by rw [← List.append_assoc, show idx + (k + 1) = idx + 1 + k by omega]; exact f2⟩
      · exact Or.inr ⟨st'', f1, f2⟩
    · simp only [e1]
      exact Or.inr ⟨st', rfl, e2⟩

theorem packLoop_all (fl : Floats) (env : Nat → Env) (data : List Val) (f : Fmt) (big : Bool) {k : Nat} {vs rest : List Val}
    {cur bytes : List Nat} {backs : List Val} (h : Many fl big f none k vs cur bytes backs rest) :
    ∀ (dst : Option Nat) (st : PSt) (idx : Nat), After st idx cur → data.drop idx = vs → cur.length + bytes.length ≤ 4294967232 →
      (∃ st', packLoop fl env data f none big k dst st = .ok st' ∧ After st' (idx + k) (cur ++ bytes)) ∨
      (∃ st', packLoop fl env data f none big k dst st = .raise st' ∧ Refused env) := by
  induction h with
  | zero vs cur =>
    intro dst st idx ha hv _
    exact Or.inl ⟨st, rfl, by simpa using ha⟩
  | succ k v vs cur bytes back bytes' backs rest h1 h2 ih =>
    intro dst st idx ha hv hl
    obtain ⟨g1, g2⟩ := data_head hv
    rw [packLoop, ha.idx, g1]
    simp only
    rw [List.length_append] at hl
    have ha' : After { st with idx := idx + 1 } (idx + 1) cur := ⟨ha.rep, ha.ro, ha.ext, rfl⟩
    rcases packOne_all fl env f big { st with idx := idx + 1 } dst v cur bytes back (idx + 1) h1 ha' (by omega) with
      ⟨st', e1, e2⟩ | ⟨st', e1, e2⟩
    · simp only [e1]
      rcases ih (adv dst 0) st' (idx + 1) e2 g2 (by rw [List.length_append]; omega) with ⟨st'', f1, f2⟩ | ⟨st'', f1, f2⟩
      · exact Or.inl ⟨st'', f1, by rw [← List.append_assoc, show idx + (k + 1) = idx + 1 + k by omega]; exact f2⟩
      · exact Or.inr ⟨st'', f1, f2⟩
    · simp only [e1]
      exact Or.inr ⟨st', rfl, e2⟩

/-- Making room for an item. -/
theorem room (env : Env) (st : PSt) (idx : Nat) (l : List Nat) (n : Nat) (ha : After st idx l) (hn : 0 < n) (hl : l.length + n ≤ 4294967232) :
    (∃ b j, makeRoom env st.buf n = .ok l.length b ∧ j.length = n ∧ After { st with buf := b, t := st.t + 1 } idx (l ++ j)) ∨
    (∃ e b, makeRoom env st.buf n = .raise e b ∧ ∃ c, env.mem c = false) := by
  rcases Buf.makeRoom_spec env st.buf l n ha.rep ha.ro (by omega) (Or.inl hl) with
    ⟨b, j, e1, e2, e3, e4, e5, _⟩ | ⟨_, e⟩ | ⟨e1, _, _, c, e2⟩ | ⟨_, _, e, _⟩ | ⟨_, _, e2, _⟩
  · exact Or.inl ⟨b, j, e1, e2, ⟨e3, e4, by rw [e5]; exact ha.ext, ha.idx⟩⟩
  · omega
  · exact Or.inr ⟨_, _, e1, c, e2⟩
  · rw [ha.ext] at e; simp at e
  · omega

theorem packValues_eq (fl : Floats) (env : Nat → Env) (data : List Val) (st : PSt) (dst : Option Nat) (f : Fmt) (size : Option Nat) (k : Nat) (big : Bool)
    (hf : f ≠ .x) (h1 : f = .u ∨ f = .i → size = some 1 ∨ size = some 2 ∨ size = some 4 ∨ size = some 8)
    (h2 : f = .f → size = some 4 ∨ size = some 8) (hk : st.idx + k ≤ data.length) (hd : data.length < 4294967296) :
    packValues fl env data st dst ⟨f, size, k, big⟩ = packLoop fl env data f size big k dst st := by
  unfold packValues
  cases f with
  | x => exact absurd rfl hf
  | u | i =>
    simp only
    rw [if_neg (by rintro ⟨_, a, b, c, d⟩; rcases h1 (by simp) with h | h | h | h <;> contradiction), if_neg (by simp), if_neg (by omega)]
  | f =>
    simp only
    rw [if_neg (by simp), if_neg (by rintro ⟨_, a, b⟩; rcases h2 rfl with h | h <;> contradiction), if_neg (by omega)]
  | b | s =>
    simp only
    rw [if_neg (by simp), if_neg (by simp), if_neg (by omega)]

theorem packItem_spec (fl : Floats) (env : Nat → Env) (data : List Val) (hd : data.length < 4294967296) (st : PSt) (idx : Nat) (f : Fmt) (size : Option Nat)
    (k : Nat) (big : Bool) (vs rest : List Val) (cur bytes : List Nat) (backs : List Val) (hf : f ≠ .x)
    (h1 : f = .u ∨ f = .i → size = some 1 ∨ size = some 2 ∨ size = some 4 ∨ size = some 8) (h2 : f = .f → size = some 4 ∨ size = some 8)
    (h : Many fl big f size k vs cur bytes backs rest) (ha : After st idx cur) (hv : data.drop idx = vs) (hi : idx ≤ data.length)
    (hl : cur.length + bytes.length ≤ 4294967232) :
    (∃ st', packItem fl env data st ⟨f, size, k, big⟩ = .ok st' ∧ After st' (idx + k) (cur ++ bytes)) ∨
    (∃ st', packItem fl env data st ⟨f, size, k, big⟩ = .raise st' ∧ Refused env) := by
  obtain ⟨_, hk⟩ := h.count
  have hk' : idx + k ≤ data.length := by rw [← hv, List.length_drop] at hk; omega
  cases size with
  | none =>
    simp only [packItem]
    rw [packValues_eq fl env data st none f none k big hf h1 h2 (by rw [ha.idx]; exact hk') hd]
    exact packLoop_all fl env data f big h none st idx ha hv hl
  | some n =>
    simp only [packItem]
    have hlen := h.length
    by_cases hz : n ≠ 0 ∧ k ≠ 0
    · rw [if_pos hz]
      have hp : 0 < n * k := Nat.mul_pos (by omega) (by omega)
      rw [Nat.mod_eq_of_lt (by omega)]
      rcases room (env st.t) st idx cur (n * k) ha hp (by omega) with ⟨b, j, e1, e2, e3⟩ | ⟨e, b, e1, c, e2⟩
      · simp only [e1]
        rw [packValues_eq fl env data _ _ f (some n) k big hf h1 h2 (by show st.idx + k ≤ _; rw [ha.idx]; exact hk') hd]
        exact packLoop_sized fl env data f n big h (some cur.length) _ idx j e3 e2 hv (Or.inr rfl)
      · simp only [e1]
        exact Or.inr ⟨_, rfl, ⟨_, c, e2⟩⟩
    · rw [if_neg hz]
      rw [packValues_eq fl env data st none f (some n) k big hf h1 h2 (by rw [ha.idx]; exact hk') hd]
      by_cases hk0 : k = 0
      · subst hk0
        cases h
        exact Or.inl ⟨st, rfl, by simpa using ha⟩
      · have hn0 : n = 0 := by omega
        exact packLoop_sized fl env data f n big h none st idx [] (by simpa using ha) (by simp [hn0]) hv (Or.inl hn0)

theorem packPad_spec (fl : Floats) (env : Nat → Env) (data : List Val) (st : PSt) (idx : Nat) (k : Nat) (big : Bool) (cur : List Nat) (ha : After st idx cur)
    (hl : cur.length + k ≤ 4294967232) :
    (∃ st', packItem fl env data st ⟨.x, some 1, k, big⟩ = .ok st' ∧ After st' idx (cur ++ zeros k)) ∨
    (∃ st', packItem fl env data st ⟨.x, some 1, k, big⟩ = .raise st' ∧ Refused env) := by
  simp only [packItem]
  by_cases hk : k = 0
  · subst hk
    rw [if_neg (by simp)]
    exact Or.inl ⟨st, rfl, by simpa [zeros] using ha⟩
  · rw [if_pos ⟨by decide, hk⟩, Nat.one_mul, Nat.mod_eq_of_lt (by omega)]
    rcases room (env st.t) st idx cur k ha (by omega) hl with ⟨b, j, e1, e2, e3⟩ | ⟨e, b, e1, c, e2⟩
    · simp only [e1, packValues]
      obtain ⟨b', f1, f2, f3, f4⟩ := poke_mid (A := cur) (M := j) (C := []) (by simpa using e3.rep) e3.ro e3.ext (List.replicate k 0) (by simp [e2])
        cur.length rfl
      simp only [f1]
      exact Or.inl ⟨_, rfl, ⟨by simpa [zeros] using f2, f3, f4, ha.idx⟩⟩
    · simp only [e1]
      exact Or.inr ⟨_, rfl, ⟨_, c, e2⟩⟩

theorem run_pack (fl : Floats) (env : Nat → Env) (data : List Val) (hd : data.length < 4294967296) {big : Bool} {toks : List Tok} {vs : List Val}
    {cur bytes : List Nat} {backs : List Val} (h : Run fl big toks vs cur bytes backs) :
    ∀ (st : PSt) (idx : Nat), After st idx cur → data.drop idx = vs → idx ≤ data.length → cur.length + bytes.length ≤ 4294967232 →
      (∃ st' idx', runToks (packItem fl env data) big toks st = .ok st' ∧ After st' idx' (cur ++ bytes)) ∨
      (∃ st', runToks (packItem fl env data) big toks st = .raise st' ∧ Refused env) := by
  induction h with
  | nil big vs cur => intro st idx ha _ _ _; exact Or.inl ⟨st, idx, rfl, by simpa using ha⟩
  | order big big' toks vs cur bytes backs _ ih =>
    intro st idx ha hv hi hl
    exact ih st idx ha hv hi hl
  | pad big n toks vs cur bytes backs _ ih =>
    intro st idx ha hv hi hl
    have hz : (zeros n).length = n := by simp [zeros]
    rw [List.length_append, hz] at hl
    simp only [runToks]
    rcases packPad_spec fl env data st idx n big cur ha (by omega) with ⟨st', e1, e2⟩ | ⟨st', e1, e2⟩
    · simp only [e1]
      rw [← List.append_assoc]
      exact ih st' idx e2 hv hi (by rw [List.length_append, hz]; omega)
    · simp only [e1]
      exact Or.inr ⟨_, rfl, e2⟩
  | item big f size n toks vs cur bytes backs rest bytes' backs' hf h1 h2 h3 hm _ ih =>
    intro st idx ha hv hi hl
    rw [List.length_append] at hl
    simp only [runToks]
    have hc := hm.count
    have hlen : vs.length = data.length - idx := by rw [← hv, List.length_drop]
    rcases packItem_spec fl env data hd st idx f size n big vs rest cur bytes backs hf h1 h2 hm ha hv hi (by omega) with ⟨st', e1, e2⟩ | ⟨st', e1, e2⟩
    · simp only [e1]
      rw [← List.append_assoc]
      exact ih st' (idx + n) e2 (by rw [hc.1, ← hv, List.drop_drop]) (by omega) (by rw [List.length_append]; omega)
    · simp only [e1]
      exact Or.inr ⟨_, rfl, e2⟩

end Verif.Base.Pack
