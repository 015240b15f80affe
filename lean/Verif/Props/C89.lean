import Verif.Str.Justify
import Verif.Str.Ops

/-!
C89: `ljust`, `rjust` and `zfill` return a string of the requested size (modules/base.kos:607-731).
-/
namespace Verif.Props

open Verif.Str

/-- `o` is a string with these characters, unless memory was refused for one of these allocations. -/
def Gives (es : List Env) (o : Option (Out S)) (cs : List Nat) : Prop :=
  (∃ r, o = some (.ok r) ∧ Rep r cs) ∨ (o = some (.raise .outOfMemory) ∧ ∃ e ∈ es, e.mem = false)

/-- A string which is too long to be created. -/
def Refused (es : List Env) (o : Option (Out S)) : Prop :=
  o = some (.raise .tooLong) ∨ o = some (.raise .tooManyRepeats) ∨ (o = some (.raise .outOfMemory) ∧ ∃ e ∈ es, e.mem = false)

theorem repeats_one (env : Env) (f : S) (c : Nat) (n : Nat) (h : Rep f [c]) :
    (n ≤ 65535 → (∃ r, repeats env f n = .ok r ∧ Rep r (List.replicate n c)) ∨ (repeats env f n = .raise .outOfMemory ∧ env.mem = false)) ∧
    (65535 < n → repeats env f n = .raise .tooManyRepeats) := by
  unfold repeats
  have hl : f.len = 1 := h.len
  have hfl : (List.replicate n [c]).flatten = List.replicate n c := by
    induction n with
    | zero => rfl
    | succ n ih => rw [List.replicate_succ, List.flatten_cons, ih, List.replicate_succ]; rfl
  constructor
  · intro hn
    rw [if_neg (by rw [hl]; omega)]
    have := (repeat_spec env f [c] n h).1 (by simp; exact hn)
    rw [hfl] at this
    exact this
  · intro hn
    rw [if_pos (by omega)]

theorem C89_ljust (e1 e2 : Env) (this fill : S) (cs : List Nat) (c : Nat) (size : Int) (ht : Rep this cs) (hf : Rep fill [c]) :
    (size ≤ cs.length → ljust e1 e2 this size fill = some (.ok this)) ∧
    (cs.length < size → size ≤ 65535 → Gives [e1, e2] (ljust e1 e2 this size fill) (cs ++ List.replicate (size.toNat - cs.length) c)) ∧
    (65535 < size → Refused [e1, e2] (ljust e1 e2 this size fill)) := by
  have hl : fill.len = 1 := hf.len
  unfold ljust
  rw [if_pos hl, ht.len]
  refine ⟨fun h => by rw [if_pos h], fun h h2 => ?_, fun h => ?_⟩
  · rw [if_neg (by omega)]
    have hn : (size - (cs.length : Int)) = ((size.toNat - cs.length : Nat) : Int) := by omega
    rw [hn]
    obtain ⟨r, hr, hrr⟩ | ⟨hr, hm⟩ := (repeats_one e1 fill c (size.toNat - cs.length) hf).1 (by omega)
    · rw [hr]
      have ha := (addN_spec e2 [(this, cs), (r, List.replicate (size.toNat - cs.length) c)] (by simp [ht, hrr]) (by simp; omega)).1 (by simp; omega)
      simp only [List.map, List.flatten_cons, List.flatten_nil, List.append_nil] at ha
      obtain ⟨q, hq, hqq⟩ | ⟨hq, hm⟩ := ha
      · exact Or.inl ⟨q, by rw [← hq], hqq⟩
      · exact Or.inr ⟨by rw [← hq], e2, by simp, hm⟩
    · rw [hr]
      exact Or.inr ⟨rfl, e1, by simp, hm⟩
  · have hmax := ht.max
    rw [if_neg (by omega)]
    have hn : (size - (cs.length : Int)) = ((size.toNat - cs.length : Nat) : Int) := by omega
    rw [hn]
    by_cases hbig : 65535 < size.toNat - cs.length
    · rw [(repeats_one e1 fill c _ hf).2 hbig]
      exact Or.inr (Or.inl rfl)
    · obtain ⟨r, hr, hrr⟩ | ⟨hr, hm⟩ := (repeats_one e1 fill c (size.toNat - cs.length) hf).1 (by omega)
      · rw [hr]
        have ha := (addN_spec e2 [(this, cs), (r, List.replicate (size.toNat - cs.length) c)] (by simp [ht, hrr]) (by simp; omega)).2 (by simp; omega)
        exact Or.inl (by rw [← ha]; rfl)
      · rw [hr]
        exact Or.inr (Or.inr ⟨rfl, e1, by simp, hm⟩)

theorem C89_rjust (e1 e2 : Env) (this fill : S) (cs : List Nat) (c : Nat) (size : Int) (ht : Rep this cs) (hf : Rep fill [c]) :
    (size ≤ cs.length → rjust e1 e2 this size fill = some (.ok this)) ∧
    (cs.length < size → size ≤ 65535 → Gives [e1, e2] (rjust e1 e2 this size fill) (List.replicate (size.toNat - cs.length) c ++ cs)) ∧
    (65535 < size → Refused [e1, e2] (rjust e1 e2 this size fill)) := by
  have hl : fill.len = 1 := hf.len
  unfold rjust
  rw [if_pos hl, ht.len]
  refine ⟨fun h => by rw [if_pos h], fun h h2 => ?_, fun h => ?_⟩
  · rw [if_neg (by omega)]
    have hn : (size - (cs.length : Int)) = ((size.toNat - cs.length : Nat) : Int) := by omega
    rw [hn]
    obtain ⟨r, hr, hrr⟩ | ⟨hr, hm⟩ := (repeats_one e1 fill c (size.toNat - cs.length) hf).1 (by omega)
    · rw [hr]
      have ha := (addN_spec e2 [(r, List.replicate (size.toNat - cs.length) c), (this, cs)] (by simp [ht, hrr]) (by simp; omega)).1 (by simp; omega)
      simp only [List.map, List.flatten_cons, List.flatten_nil, List.append_nil] at ha
      obtain ⟨q, hq, hqq⟩ | ⟨hq, hm⟩ := ha
      · exact Or.inl ⟨q, by rw [← hq], hqq⟩
      · exact Or.inr ⟨by rw [← hq], e2, by simp, hm⟩
    · rw [hr]
      exact Or.inr ⟨rfl, e1, by simp, hm⟩
  · have hmax := ht.max
    rw [if_neg (by omega)]
    have hn : (size - (cs.length : Int)) = ((size.toNat - cs.length : Nat) : Int) := by omega
    rw [hn]
    by_cases hbig : 65535 < size.toNat - cs.length
    · rw [(repeats_one e1 fill c _ hf).2 hbig]
      exact Or.inr (Or.inl rfl)
    · obtain ⟨r, hr, hrr⟩ | ⟨hr, hm⟩ := (repeats_one e1 fill c (size.toNat - cs.length) hf).1 (by omega)
      · rw [hr]
        have ha := (addN_spec e2 [(r, List.replicate (size.toNat - cs.length) c), (this, cs)] (by simp [ht, hrr]) (by simp; omega)).2 (by simp; omega)
        exact Or.inl (by rw [← ha]; rfl)
      · rw [hr]
        exact Or.inr (Or.inr ⟨rfl, e1, by simp, hm⟩)

/-- What `zfill` returns: the filling is after the sign, if there is one. -/
def zfilled (n c : Nat) : List Nat → List Nat
  | [] => List.replicate n c
  | d :: cs => if d = '+'.toNat ∨ d = '-'.toNat then d :: (List.replicate n c ++ cs) else List.replicate n c ++ d :: cs

theorem zfilled_length (n c : Nat) (cs : List Nat) : (zfilled n c cs).length = n + cs.length := by
  cases cs with
  | nil => simp [zfilled]
  | cons d cs =>
    show (if _ then _ else _ : List Nat).length = _
    split <;> simp only [List.length_cons, List.length_append, List.length_replicate] <;> omega

theorem isSign_one (s : S) (d : Nat) (h : Rep s [d]) : isSign s = true ↔ d = '+'.toNat ∨ d = '-'.toNat := by
  unfold isSign
  rw [getCharCode_spec s [d] 0 h]
  have : s.len = 1 := h.len
  simp [this]

theorem isSign_empty : isSign empty = false := by decide

/-- The last part of `zfill`, with the filling made. -/
theorem zfill_tail (e2 e3 e4 : Env) (this f : S) (cs : List Nat) (c n : Nat) (ht : Rep this cs) (hf : Rep f (List.replicate n c)) (hn : n ≤ 65535) :
    ∀ o, o = (match (if this.len ≠ 0 then getChar e2 this 0 else .ok empty) with
        | .raise e => Out.raise e
        | .bad => .bad
        | .ok sign =>
          if isSign sign then
            match slice e3 this 1 9223372036854775807 with
            | .raise e => .raise e
            | .bad => .bad
            | .ok t => addN e4 [sign, f, t]
          else addN e4 [f, this]) →
    (n + cs.length ≤ 65535 → Gives [e2, e3, e4] (some o) (zfilled n c cs)) ∧ (65535 < n + cs.length → Refused [e2, e3, e4] (some o)) := by
  rintro o rfl
  have hmax := ht.max
  have plain : ∀ zs, zs = List.replicate n c ++ cs →
      (n + cs.length ≤ 65535 → Gives [e2, e3, e4] (some (addN e4 [f, this])) zs) ∧ (65535 < n + cs.length → Refused [e2, e3, e4] (some (addN e4 [f, this]))) := by
    rintro zs rfl
    have ha := addN_spec e4 [(f, List.replicate n c), (this, cs)] (by simp [ht, hf]) (by simp; omega)
    simp only [List.map, List.flatten_cons, List.flatten_nil, List.append_nil, List.length_append, List.length_replicate] at ha
    refine ⟨fun h => ?_, fun h => Or.inl (by rw [ha.2 h])⟩
    obtain ⟨q, hq, hqq⟩ | ⟨hq, hm⟩ := ha.1 h
    · exact Or.inl ⟨q, by rw [hq], hqq⟩
    · exact Or.inr ⟨by rw [hq], e4, by simp, hm⟩
  cases cs with
  | nil =>
    have h0 : this.len = 0 := ht.len
    simp only [h0, ne_eq, not_true_eq_false, if_false, isSign_empty, Bool.false_eq_true]
    exact plain _ (by simp [zfilled])
  | cons d cs =>
    have h0 : this.len ≠ 0 := by rw [ht.len]; simp
    rw [if_pos h0]
    have hg := getChar_spec e2 this (d :: cs) 0 ht
    rw [getCharCode_spec this (d :: cs) 0 ht] at hg
    simp only [Int.lt_irrefl, if_false, Int.toNat_zero, List.getElem?_cons_zero] at hg
    obtain ⟨sg, hsg, hrs⟩ | ⟨hr, hm⟩ := hg
    · rw [hsg]
      by_cases hd : d = '+'.toNat ∨ d = '-'.toNat
      · simp only [(isSign_one sg d hrs).2 hd, if_true]
        obtain ⟨t, hst, hrt⟩ | ⟨hr, hm⟩ := slice_spec e3 this (d :: cs) 1 9223372036854775807 ht
        · rw [hst]
          have hcs : ((d :: cs).take (range (d :: cs).length 1 9223372036854775807).2.toNat).drop (range (d :: cs).length 1 9223372036854775807).1.toNat = cs := by
            have e : range (d :: cs).length 1 9223372036854775807 = (1, (((d :: cs).length : Nat) : Int)) := by
              unfold range
              simp only [List.length_cons] at hmax ⊢
              rw [if_neg (by omega), if_neg (by omega), if_neg (by omega), if_pos (by omega)]
            rw [e]
            simp
          rw [hcs] at hrt
          have ha := addN_spec e4 [(sg, [d]), (f, List.replicate n c), (t, cs)] (by simp [hrs, hf, hrt]) (by simp at hmax ⊢; omega)
          simp only [List.map, List.flatten_cons, List.flatten_nil, List.append_nil, List.length_append, List.length_replicate, List.length_cons, List.length_nil] at ha
          have hz : zfilled n c (d :: cs) = [d] ++ (List.replicate n c ++ cs) := if_pos hd
          rw [hz]
          simp only [List.length_cons]
          refine ⟨fun h => ?_, fun h => Or.inl (by rw [ha.2 (by omega)])⟩
          obtain ⟨q, hq, hqq⟩ | ⟨hq, hm⟩ := ha.1 (by omega)
          · exact Or.inl ⟨q, by rw [hq], hqq⟩
          · exact Or.inr ⟨by rw [hq], e4, by simp, hm⟩
        · rw [hr]
          exact ⟨fun _ => Or.inr ⟨rfl, e3, by simp, hm⟩, fun _ => Or.inr (Or.inr ⟨rfl, e3, by simp, hm⟩)⟩
      · have hs : isSign sg = false := by
          rw [← Bool.not_eq_true, isSign_one sg d hrs]; exact hd
        simp only [hs, Bool.false_eq_true, if_false]
        exact plain _ (if_neg hd)
    · rw [hr]
      exact ⟨fun _ => Or.inr ⟨rfl, e2, by simp, hm⟩, fun _ => Or.inr (Or.inr ⟨rfl, e2, by simp, hm⟩)⟩

theorem C89_zfill (e1 e2 e3 e4 : Env) (this fill : S) (cs : List Nat) (c : Nat) (size : Int) (ht : Rep this cs) (hf : Rep fill [c]) :
    (size ≤ cs.length → zfill e1 e2 e3 e4 this size fill = some (.ok this)) ∧
    (cs.length < size → size ≤ 65535 → Gives [e1, e2, e3, e4] (zfill e1 e2 e3 e4 this size fill) (zfilled (size.toNat - cs.length) c cs)) ∧
    (65535 < size → Refused [e1, e2, e3, e4] (zfill e1 e2 e3 e4 this size fill)) := by
  have hl : fill.len = 1 := hf.len
  have hmax := ht.max
  have up : ∀ o, (∀ zs, Gives [e2, e3, e4] o zs → Gives [e1, e2, e3, e4] o zs) ∧ (Refused [e2, e3, e4] o → Refused [e1, e2, e3, e4] o) := by
    refine fun o => ⟨fun zs h => ?_, fun h => ?_⟩
    · obtain h | ⟨h, e, he, hm⟩ := h
      · exact Or.inl h
      · exact Or.inr ⟨h, e, List.mem_cons_of_mem _ he, hm⟩
    · obtain h | h | ⟨h, e, he, hm⟩ := h
      · exact Or.inl h
      · exact Or.inr (Or.inl h)
      · exact Or.inr (Or.inr ⟨h, e, List.mem_cons_of_mem _ he, hm⟩)
  refine ⟨fun h => ?_, fun h h2 => ?_, fun h => ?_⟩
  · unfold zfill
    rw [if_pos hl, if_pos (by rw [ht.len]; exact h)]
  · unfold zfill
    rw [if_pos hl, if_neg (by rw [ht.len]; omega)]
    have hn : (size - (this.len : Int)) = ((size.toNat - cs.length : Nat) : Int) := by rw [ht.len]; omega
    rw [hn]
    obtain ⟨r, hr, hrr⟩ | ⟨hr, hm⟩ := (repeats_one e1 fill c (size.toNat - cs.length) hf).1 (by omega)
    · rw [hr]
      exact (up _).1 _ ((zfill_tail e2 e3 e4 this r cs c _ ht hrr (by omega) _ rfl).1 (by omega))
    · rw [hr]
      exact Or.inr ⟨rfl, e1, by simp, hm⟩
  · unfold zfill
    rw [if_pos hl, if_neg (by rw [ht.len]; omega)]
    have hn : (size - (this.len : Int)) = ((size.toNat - cs.length : Nat) : Int) := by rw [ht.len]; omega
    rw [hn]
    by_cases hbig : 65535 < size.toNat - cs.length
    · rw [(repeats_one e1 fill c _ hf).2 hbig]
      exact Or.inr (Or.inl rfl)
    · obtain ⟨r, hr, hrr⟩ | ⟨hr, hm⟩ := (repeats_one e1 fill c (size.toNat - cs.length) hf).1 (by omega)
      · rw [hr]
        exact (up _).2 ((zfill_tail e2 e3 e4 this r cs c _ ht hrr (by omega) _ rfl).2 (by omega))
      · rw [hr]
        exact Or.inr (Or.inr ⟨rfl, e1, by simp, hm⟩)

/-- A filling which is not one character is refused by an assertion; nothing else is. -/
theorem C89_fill (e1 e2 e3 e4 : Env) (this fill : S) (ds : List Nat) (size : Int) (hf : Rep fill ds) :
    (ljust e1 e2 this size fill = none ↔ ds.length ≠ 1) ∧ (rjust e1 e2 this size fill = none ↔ ds.length ≠ 1) ∧
    (zfill e1 e2 e3 e4 this size fill = none ↔ ds.length ≠ 1) := by
  unfold ljust rjust zfill
  rw [hf.len]
  by_cases h : ds.length = 1 <;> simp [h]

/-- The size of what is returned. -/
theorem C89_size (cs : List Nat) (c : Nat) (size : Nat) (h : cs.length < size) :
    (cs ++ List.replicate (size - cs.length) c).length = size ∧ (List.replicate (size - cs.length) c ++ cs).length = size ∧
    (zfilled (size - cs.length) c cs).length = size := by
  rw [zfilled_length]
  simp
  omega

def justifyEnv : Env := ⟨true, 100, fun _ => 0xAB⟩

/-- The characters of what is returned. -/
def justified (o : Option (Out S)) : Option (List Nat) :=
  match o with
  | some (.ok r) => (List.range r.len).mapM fun (i : Nat) => match getCharCode r (i : Nat) with | .ok c => some c | _ => none
  | _ => none

-- a string of 16-bit characters and one of 8-bit characters: "+\u0141" and "0"
def plusL : S := ⟨.w16, false, .inObj, 2, 0, 0, [0x2B, 0, 0x41, 1]⟩
def zero : S := ⟨.w8, true, .inObj, 1, 0, 0, [0x30]⟩

example : justified (ljust justifyEnv justifyEnv plusL 4 zero) = some [0x2B, 0x141, 0x30, 0x30] := by decide +kernel
example : justified (rjust justifyEnv justifyEnv plusL 4 zero) = some [0x30, 0x30, 0x2B, 0x141] := by decide +kernel
example : justified (zfill justifyEnv justifyEnv justifyEnv justifyEnv plusL 4 zero) = some [0x2B, 0x30, 0x30, 0x141] := by decide +kernel
example : justified (zfill justifyEnv justifyEnv justifyEnv justifyEnv zero 2 zero) = some [0x30, 0x30] := by decide +kernel
example : ljust justifyEnv justifyEnv plusL 70000 zero = some (.raise .tooManyRepeats) ∧ ljust justifyEnv justifyEnv plusL 3 plusL = none := by decide +kernel

end Verif.Props
