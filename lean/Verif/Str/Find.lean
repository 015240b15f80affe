import Verif.Str.Cmp
import Verif.Str.Spec

/-! Searching in strings. -/
namespace Verif.Str

/-- Outcome of trying `n` positions from `pos` in steps of `delta`. -/
def Walk (P : Int → Prop) (delta : Int) (n : Nat) (pos r : Int) : Prop :=
  (∃ k, k < n ∧ r = pos + delta * k ∧ P r ∧ ∀ j, j < k → ¬ P (pos + delta * (j : Nat))) ∨
  (r = -1 ∧ ∀ j, j < n → ¬ P (pos + delta * (j : Nat)))

theorem Walk.cons {P : Int → Prop} {delta : Int} {n : Nat} {pos r : Int} (h0 : ¬ P pos) (h : Walk P delta n (pos + delta) r) :
    Walk P delta (n + 1) pos r := by
  have sh : ∀ j : Nat, pos + delta * ((j + 1 : Nat) : Int) = pos + delta + delta * j := by
    intro j
    rw [Int.natCast_add, Int.mul_add]; omega
  rcases h with ⟨k, h1, h2, h3, h4⟩ | ⟨h1, h2⟩
  · left
    refine ⟨k + 1, by omega, by rw [sh]; exact h2, h3, fun j hj => ?_⟩
    cases j with
    | zero => simpa using h0
    | succ j => rw [sh]; exact h4 j (by omega)
  · right
    refine ⟨h1, fun j hj => ?_⟩
    cases j with
    | zero => simpa using h0
    | succ j => rw [sh]; exact h2 j (by omega)

theorem Walk.hit {P : Int → Prop} {delta : Int} {n : Nat} {pos : Int} (h0 : P pos) : Walk P delta (n + 1) pos pos :=
  Or.inl ⟨0, by omega, by simp, h0, fun j hj => absurd hj (by omega)⟩

theorem Walk.stop {P : Int → Prop} {delta : Int} {pos : Int} : Walk P delta 0 pos (-1) :=
  Or.inr ⟨rfl, fun j hj => absurd hj (by omega)⟩

/-- Pattern `ds` occurs in `cs` at position `p`. -/
def At (cs ds : List Nat) (p : Int) : Prop := 0 ≤ p ∧ p.toNat + ds.length ≤ cs.length ∧ (cs.take (p.toNat + ds.length)).drop p.toNat = ds

theorem findLoop_spec (coll : Nat → Nat → Int) (hc : ∀ x y, x ≠ y → coll x y ≠ 0) (text pat : S) (cs ds : List Nat) (ht : Rep text cs)
    (hp : Rep pat ds) (stop delta : Int) (n : Nat) : ∀ (fuel : Nat) (pos : Int), n < fuel → stop = pos + delta * n →
    (∀ j : Nat, j < n → pos + delta * j ≠ stop ∧ 0 ≤ pos + delta * j ∧ (pos + delta * j).toNat + ds.length ≤ cs.length) →
    ∃ r, findLoop coll text pat stop delta fuel pos = some r ∧ Walk (At cs ds) delta n pos r := by
  induction n with
  | zero =>
    intro fuel pos hf hs _
    cases fuel with
    | zero => omega
    | succ fuel =>
      rw [findLoop, if_neg (by simp [hs])]
      exact ⟨_, rfl, .stop⟩
  | succ n ih =>
    intro fuel pos hf hs hr
    cases fuel with
    | zero => omega
    | succ fuel =>
      obtain ⟨a1, a2, a3⟩ := hr 0 (by omega)
      simp only [Int.natCast_zero, Int.mul_zero, Int.add_zero] at a1 a2 a3
      rw [findLoop, if_pos a1, if_neg (by omega), hp.len]
      obtain ⟨r, e1, e2⟩ := compareSlice_spec coll text pat cs ds ht hp pos.toNat (pos.toNat + ds.length) 0 ds.length (by omega) a3 (by omega)
        (Nat.le_refl _)
      rw [e1]
      simp only
      have ez := e2.zero hc
      rw [List.take_length, List.drop_zero] at ez
      by_cases h0 : r = 0
      · rw [if_pos h0]
        exact ⟨_, rfl, .hit ⟨a2, a3, ez.mp h0⟩⟩
      · rw [if_neg h0]
        obtain ⟨r', f1, f2⟩ := ih fuel (pos + delta) (by omega) (by rw [hs, Int.natCast_add, Int.mul_add]; omega) (by
          intro j hj
          have := hr (j + 1) (by omega)
          rw [Int.natCast_add, Int.mul_add, show pos + (delta * (j : Int) + delta * ((1 : Nat) : Int)) = pos + delta + delta * j by omega] at this
          exact this)
        exact ⟨r', f1, .cons (fun c => h0 (ez.mpr c.2.2)) f2⟩

theorem inSet_spec (w : Width) (code : Nat) (ds : List Nat) : ∀ (pre rest : List Nat), (∀ c ∈ ds, c < 256 ^ w.bytes) →
    inSet (enc w.bytes (pre ++ ds) ++ rest) w.bytes code ds.length (pre.length * w.bytes) = some (decide (code ∈ ds)) := by
  induction ds with
  | nil => intro pre rest _; simp [inSet]
  | cons d ds ih =>
    intro pre rest hf
    rw [List.length_cons, inSet]
    have e := unit_enc w.bytes pre.length (pre ++ d :: ds) rest (by simp) (by simpa using hf d (by simp))
    rw [List.getElem_append_right (Nat.le_refl _)] at e
    simp only [Nat.sub_self, List.getElem_cons_zero] at e
    rw [e]
    simp only
    by_cases h : d = code
    · rw [if_pos h]; simp [h]
    · rw [if_neg h]
      have := ih (pre ++ [d]) rest (fun c hc => hf c (by simp [hc]))
      rw [List.append_assoc, List.singleton_append, List.length_append, List.length_singleton, Nat.add_mul, Nat.one_mul] at this
      rw [this]
      have h' : ¬ code = d := fun c => h c.symm
      simp [h']

theorem masked_iff (w : Width) (c : Nat) (h : c < 4294967296) : masked w c = true ↔ 256 ^ w.bytes ≤ c := by
  cases w
  · simp only [masked, Width.bytes, bne_iff_ne, ne_eq]; omega
  · simp only [masked, Width.bytes, bne_iff_ne, ne_eq]; omega
  · simp only [masked, Width.bytes]
    constructor
    · intro c; exact absurd c (by decide)
    · intro c; omega

/-- The character at position `p` stops a scan.  Characters wider than the set are skipped. -/
def Stops (cs ds : List Nat) (w : Width) (incl : Bool) (p : Int) : Prop :=
  ∃ c, 0 ≤ p ∧ cs[p.toNat]? = some c ∧ c < 256 ^ w.bytes ∧ (c ∈ ds ↔ incl = true)

theorem Rep.code_lt {s : S} {cs : List Nat} (h : Rep s cs) : ∀ c ∈ cs, c < 4294967296 := by
  intro c hc
  have := h.fit c hc
  cases hw : s.width <;> rw [hw] at this <;> simp only [Width.bytes] at this <;> omega

theorem scanLoop_spec (text pat : S) (cs ds : List Nat) (incl : Bool) (ht : Rep text cs)
    (hp : Rep pat ds) (stop delta : Int) (n : Nat) : ∀ (fuel : Nat) (pos : Int), n < fuel → stop = pos + delta * n →
    (∀ j : Nat, j < n → pos + delta * j ≠ stop ∧ 0 ≤ pos + delta * j ∧ (pos + delta * j).toNat < cs.length) →
    ∃ r, scanLoop text pat incl stop delta fuel pos = some r ∧ Walk (Stops cs ds pat.width incl) delta n pos r := by
  induction n with
  | zero =>
    intro fuel pos hf hs _
    cases fuel with
    | zero => omega
    | succ fuel =>
      rw [scanLoop, if_neg (by simp [hs])]
      exact ⟨_, rfl, .stop⟩
  | succ n ih =>
    intro fuel pos hf hs hr
    cases fuel with
    | zero => omega
    | succ fuel =>
      obtain ⟨a1, a2, a3⟩ := hr 0 (by omega)
      simp only [Int.natCast_zero, Int.mul_zero, Int.add_zero] at a1 a2 a3
      have next : ¬ Stops cs ds pat.width incl pos → ∃ r, scanLoop text pat incl stop delta fuel (pos + delta) = some r ∧
          Walk (Stops cs ds pat.width incl) delta (n + 1) pos r := by
        intro h0
        obtain ⟨r', f1, f2⟩ := ih fuel (pos + delta) (by omega) (by rw [hs, Int.natCast_add, Int.mul_add]; omega) (by
          intro j hj
          have := hr (j + 1) (by omega)
          rw [Int.natCast_add, Int.mul_add, show pos + (delta * (j : Int) + delta * ((1 : Nat) : Int)) = pos + delta + delta * j by omega] at this
          exact this)
        exact ⟨r', f1, .cons h0 f2⟩
      have hge : cs[pos.toNat]? = some cs[pos.toNat] := List.getElem?_eq_getElem a3
      have hlt := ht.code_lt _ (List.getElem_mem a3)
      have hfit := ht.fit _ (List.getElem_mem a3)
      rw [scanLoop, if_pos a1, if_neg (by omega), ht.unit pos.toNat a3]
      simp only
      by_cases hm : text.width ≠ .w8 ∧ masked pat.width cs[pos.toNat] = true
      · rw [if_pos hm]
        apply next
        rintro ⟨c, b1, b2, b3, b4⟩
        rw [hge, Option.some.injEq] at b2
        have := (masked_iff _ _ hlt).mp hm.2
        omega
      · rw [if_neg hm]
        have hw : cs[pos.toNat] < 256 ^ pat.width.bytes := by
          by_cases h8 : text.width = .w8
          · rw [h8] at hfit
            exact Nat.lt_of_lt_of_le hfit (Width.mono .w8 _ (Nat.zero_le _))
          · have : ¬ masked pat.width cs[pos.toNat] = true := fun c => hm ⟨h8, c⟩
            rw [masked_iff _ _ hlt] at this
            omega
        obtain ⟨rest, ep⟩ := hp.mem
        have ei := inSet_spec pat.width cs[pos.toNat] ds [] rest hp.fit
        rw [List.nil_append, List.length_nil, Nat.zero_mul] at ei
        rw [ep, hp.len, ei]
        simp only
        by_cases hi : decide (cs[pos.toNat] ∈ ds) = incl
        · rw [if_pos hi]
          refine ⟨_, rfl, .hit ⟨_, a2, hge, hw, ?_⟩⟩
          rw [← hi]; simp
        · rw [if_neg hi]
          apply next
          rintro ⟨c, b1, b2, b3, b4⟩
          rw [hge, Option.some.injEq] at b2
          subst b2
          apply hi
          cases incl <;> simpa using b4

theorem memchr_spec (m A rest : List Nat) (hm : m = A ++ rest) (c : Nat) (n : Nat) : ∀ i, i + n = A.length →
    ∃ r, memchr m c n i = some r ∧ Walk (fun p => 0 ≤ p ∧ A[p.toNat]? = some c) 1 n i r := by
  induction n with
  | zero => intro i _; exact ⟨_, rfl, .stop⟩
  | succ n ih =>
    intro i hi
    have hlt : i < A.length := by omega
    have : m[i]? = some A[i] := by rw [hm, List.getElem?_append_left hlt, List.getElem?_eq_getElem hlt]
    rw [memchr, this]
    simp only
    by_cases h : A[i] = c
    · rw [if_pos h]
      refine ⟨_, rfl, .hit ⟨by omega, ?_⟩⟩
      rw [Int.toNat_natCast, List.getElem?_eq_getElem hlt, h]
    · rw [if_neg h]
      obtain ⟨r, e1, e2⟩ := ih (i + 1) (by omega)
      refine ⟨r, e1, .cons ?_ e2⟩
      rintro ⟨_, b⟩
      rw [Int.toNat_natCast, List.getElem?_eq_getElem hlt, Option.some.injEq] at b
      exact h b

theorem leBytes_one (c : Nat) (h : c < 256) : leBytes 1 c = [c] := by
  simp [leBytes, Nat.mod_eq_of_lt h]

theorem enc_one (cs : List Nat) (h : ∀ c ∈ cs, c < 256) : enc 1 cs = cs := by
  induction cs with
  | nil => rfl
  | cons c cs ih => rw [enc_cons, leBytes_one c (h c (by simp)), ih (fun x hx => h x (by simp [hx]))]; rfl

/-! ### From walks to positions -/

theorem Walk.fwd {P : Int → Prop} {n : Nat} {pos r : Int} (h : Walk P 1 n pos r) (hb : ∀ q, P q → q < pos + n) : Nearest P false pos r := by
  have key : ∀ q, pos ≤ q → P q → ∃ j : Nat, j < n ∧ q = pos + 1 * (j : Nat) := by
    intro q h1 h2
    have := hb q h2
    exact ⟨(q - pos).toNat, by omega, by omega⟩
  rcases h with ⟨k, h1, h2, h3, h4⟩ | ⟨h1, h2⟩
  · left
    refine ⟨h3, by simp [Ahead]; omega, fun q hq ha => ?_⟩
    simp only [Ahead, Bool.false_eq_true, if_false] at ha ⊢
    obtain ⟨j, j1, j2⟩ := key q ha hq
    by_cases hj : j < k
    · rw [j2] at hq; exact absurd hq (h4 j hj)
    · omega
  · right
    refine ⟨h1, fun q ha hq => ?_⟩
    simp only [Ahead, Bool.false_eq_true, if_false] at ha
    obtain ⟨j, j1, j2⟩ := key q ha hq
    rw [j2] at hq; exact h2 j j1 hq

theorem Walk.bwd {P : Int → Prop} {n : Nat} {pos r : Int} (h : Walk P (-1) n pos r) (hb : ∀ q, P q → pos - n < q) : Nearest P true pos r := by
  have key : ∀ q, q ≤ pos → P q → ∃ j : Nat, j < n ∧ q = pos + (-1) * (j : Nat) := by
    intro q h1 h2
    have := hb q h2
    exact ⟨(pos - q).toNat, by omega, by omega⟩
  rcases h with ⟨k, h1, h2, h3, h4⟩ | ⟨h1, h2⟩
  · left
    refine ⟨h3, by simp [Ahead]; omega, fun q hq ha => ?_⟩
    simp only [Ahead, if_true] at ha ⊢
    obtain ⟨j, j1, j2⟩ := key q ha hq
    by_cases hj : j < k
    · rw [j2] at hq; exact absurd hq (h4 j hj)
    · omega
  · right
    refine ⟨h1, fun q ha hq => ?_⟩
    simp only [Ahead, if_true] at ha
    obtain ⟨j, j1, j2⟩ := key q ha hq
    rw [j2] at hq; exact h2 j j1 hq

theorem Stops.range {cs ds : List Nat} {w : Width} {incl : Bool} {p : Int} (h : Stops cs ds w incl p) : 0 ≤ p ∧ p < cs.length := by
  obtain ⟨c, h1, h2, _⟩ := h
  have := (List.getElem?_eq_some_iff.mp h2).1
  omega

/-- Scanning for a non-empty set from within the text. -/
theorem scan_spec (text pat : S) (cs ds : List Nat) (ht : Rep text cs) (hp : Rep pat ds) (hd : ds ≠ []) (rev incl : Bool) (pos : Int)
    (h0 : 0 ≤ pos) (h1 : pos < cs.length) :
    ∃ r, scan text pat rev incl pos = some r ∧ Nearest (Stops cs ds pat.width incl) rev pos r := by
  unfold scan
  have hdl : ds.length ≠ 0 := fun c => hd (List.length_eq_zero_iff.mp c)
  rw [hp.len, ht.len, if_neg hdl, if_neg (by omega)]
  by_cases hq : rev = false ∧ incl = true ∧ ds.length = 1 ∧ text.width = .w8 ∧ pat.width = .w8
  · rw [if_pos hq]
    obtain ⟨rfl, rfl, h3, h4, h5⟩ := hq
    obtain ⟨c, rfl⟩ := List.length_eq_one_iff.mp h3
    obtain ⟨rp, ep⟩ := hp.mem
    obtain ⟨rt, et⟩ := ht.mem
    have fp := hp.fit
    have ft := ht.fit
    rw [h5] at ep fp
    rw [h4] at et ft
    have fp' : ∀ x ∈ [c], x < 256 := fp
    have ft' : ∀ x ∈ cs, x < 256 := ft
    simp only [Width.bytes] at ep et
    rw [enc_one _ fp'] at ep
    rw [enc_one _ ft'] at et
    rw [ep]
    simp only [List.cons_append, List.getElem?_cons_zero]
    obtain ⟨r, e1, e2⟩ := memchr_spec text.mem cs rt et c (cs.length - pos.toNat) pos.toNat (by omega)
    refine ⟨r, e1, ?_⟩
    rw [show ((pos.toNat : Nat) : Int) = pos by omega] at e2
    have hPQ : ∀ p : Int, (0 ≤ p ∧ cs[p.toNat]? = some c) ↔ Stops cs [c] pat.width true p := by
      intro p
      constructor
      · rintro ⟨b1, b2⟩
        exact ⟨c, b1, b2, by rw [h5]; exact fp' c (by simp), by simp⟩
      · rintro ⟨x, b1, b2, b3, b4⟩
        have : x = c := by simpa using b4
        subst this
        exact ⟨b1, b2⟩
    have hfun : (fun p : Int => 0 ≤ p ∧ cs[p.toNat]? = some c) = Stops cs [c] pat.width true := funext fun p => propext (hPQ p)
    rw [hfun] at e2
    exact e2.fwd (fun q hq => by have := hq.range; omega)
  · rw [if_neg hq]
    cases rev with
    | false =>
      simp only [Bool.false_eq_true, if_false]
      obtain ⟨r, e1, e2⟩ := scanLoop_spec text pat cs ds incl ht hp cs.length 1 (cs.length - pos.toNat) (cs.length + 1) pos (by omega) (by omega)
        (fun j hj => by omega)
      exact ⟨r, e1, e2.fwd (fun q hq => by have := hq.range; omega)⟩
    | true =>
      simp only [if_true]
      obtain ⟨r, e1, e2⟩ := scanLoop_spec text pat cs ds incl ht hp (-1) (-1) (pos.toNat + 1) (cs.length + 1) pos (by omega) (by omega)
        (fun j hj => by omega)
      exact ⟨r, e1, e2.bwd (fun q hq => by have := hq.range; omega)⟩

theorem At.range {cs ds : List Nat} {p : Int} (h : At cs ds p) : 0 ≤ p ∧ p + ds.length ≤ cs.length := ⟨h.1, by have := h.1; have := h.2.1; omega⟩

theorem at_one (cs : List Nat) (c : Nat) (w : Width) (hc : c < 256 ^ w.bytes) (p : Int) : Stops cs [c] w true p ↔ At cs [c] p := by
  constructor
  · rintro ⟨x, b1, b2, b3, b4⟩
    have : x = c := by simpa using b4
    subst this
    obtain ⟨hl, he⟩ := List.getElem?_eq_some_iff.mp b2
    refine ⟨b1, by rw [List.length_singleton]; omega, ?_⟩
    rw [List.length_singleton, List.drop_take, Nat.add_sub_cancel_left, List.drop_eq_getElem_cons hl, List.take_succ_cons, List.take_zero, he]
  · rintro ⟨b1, b2, b3⟩
    rw [List.length_singleton] at b2 b3
    have hl : p.toNat < cs.length := by omega
    rw [List.drop_take, Nat.add_sub_cancel_left, List.drop_eq_getElem_cons hl, List.take_succ_cons, List.take_zero, List.cons.injEq] at b3
    exact ⟨c, b1, by rw [List.getElem?_eq_getElem hl, b3.1], hc, by simp⟩

/-- Searching for a non-empty pattern from a position where it would fit. -/
theorem find_spec (coll : Nat → Nat → Int) (hc : ∀ x y, x ≠ y → coll x y ≠ 0) (text pat : S) (cs ds : List Nat) (ht : Rep text cs)
    (hp : Rep pat ds) (hd : ds ≠ []) (rev : Bool) (pos : Int) (h0 : 0 ≤ pos) (h1 : pos + ds.length ≤ cs.length) :
    ∃ r, find coll text pat rev pos = some r ∧ Nearest (At cs ds) rev pos r := by
  unfold find
  have hdl : ds.length ≠ 0 := fun c => hd (List.length_eq_zero_iff.mp c)
  rw [hp.len, ht.len, if_neg hdl, if_neg (by omega)]
  by_cases ho : ds.length = 1
  · rw [if_pos ho]
    obtain ⟨c, rfl⟩ := List.length_eq_one_iff.mp ho
    obtain ⟨r, e1, e2⟩ := scan_spec text pat cs [c] ht hp hd rev true pos h0 (by omega)
    refine ⟨r, e1, ?_⟩
    have hfun : Stops cs [c] pat.width true = At cs [c] := funext fun p => propext (at_one cs c _ (hp.fit c (by simp)) p)
    rw [hfun] at e2
    exact e2
  · rw [if_neg ho]
    cases rev with
    | false =>
      simp only [Bool.false_eq_true, if_false]
      obtain ⟨r, e1, e2⟩ := findLoop_spec coll hc text pat cs ds ht hp (cs.length - ds.length + 1) 1 (cs.length - ds.length + 1 - pos.toNat)
        (cs.length + 1) pos (by omega) (by omega) (fun j hj => by omega)
      exact ⟨r, e1, e2.fwd (fun q hq => by have := hq.range; omega)⟩
    | true =>
      simp only [if_true]
      obtain ⟨r, e1, e2⟩ := findLoop_spec coll hc text pat cs ds ht hp (-1) (-1) (pos.toNat + 1) (cs.length + 1) pos (by omega) (by omega)
        (fun j hj => by omega)
      exact ⟨r, e1, e2.bwd (fun q hq => by have := hq.range; omega)⟩

end Verif.Str
