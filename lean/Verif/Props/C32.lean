import Verif.Props.C31

/-
C32: calling a function with named arguments binds exactly the parameters of those names, fills gaps with default values, and raises an
exception for unknown or missing names.
-/
namespace Verif.Call

variable {V : Type}

/-- What is stored by the loop over the named arguments. -/
theorem storeNamed_spec (look : String → Option Idx) (n : Nat) : ∀ (obj : List (String × V)) (slots : List (Option V)) (found : Nat),
    slots.length = n → found ≤ n → (∀ p ∈ obj, ∃ i, look p.1 = some (.small i)) →
    (∀ p ∈ obj, ∀ q ∈ obj, ∀ i, look p.1 = some (.small i) → look q.1 = some (.small i) → p.1 = q.1) → (obj.map Prod.fst).Nodup →
    ∃ slots' found', storeNamed look n obj slots found = .ok (slots', found') ∧ slots'.length = n ∧ found ≤ found' ∧ found' ≤ n ∧
      (∀ p ∈ obj, ∀ i, look p.1 = some (.small i) → i < n → slots'[i]? = some (some p.2) ∧ i < found') ∧
      (∀ i, (∀ p ∈ obj, look p.1 ≠ some (.small i)) → slots'[i]? = slots[i]?)
  | [], slots, found, hl, hf, _, _, _ => ⟨slots, found, rfl, hl, Nat.le_refl _, hf, by simp, by simp⟩
  | (name, v) :: rest, slots, found, hl, hf, hk, hi, hn => by
    obtain ⟨idx, hidx⟩ := hk (name, v) (by simp)
    simp only at hidx
    simp only [List.map_cons, List.nodup_cons, List.mem_map, not_exists, not_and] at hn
    have hk' : ∀ p ∈ rest, ∃ i, look p.1 = some (.small i) := fun p hp => hk p (by simp [hp])
    have hi' : ∀ p ∈ rest, ∀ q ∈ rest, ∀ i, look p.1 = some (.small i) → look q.1 = some (.small i) → p.1 = q.1 :=
      fun p hp q hq => hi p (by simp [hp]) q (by simp [hq])
    have hne : ∀ p ∈ rest, look p.1 ≠ some (.small idx) := fun p hp he =>
      hn.1 p hp (hi p (by simp [hp]) (name, v) (by simp) idx he hidx)
    simp only [storeNamed, hidx]
    by_cases hlt : idx < n
    · rw [if_pos hlt]
      obtain ⟨s', f', e, a1, a2, a3, a4, a5⟩ := storeNamed_spec look n rest (slots.set idx (some v)) (max found (idx + 1)) (by simpa using hl) (by omega) hk' hi' hn.2
      refine ⟨s', f', e, a1, by omega, a3, ?_, ?_⟩
      · intro p hp i hpi hin
        simp only [List.mem_cons] at hp
        rcases hp with rfl | hp
        · rw [hidx] at hpi
          cases hpi
          refine ⟨?_, by omega⟩
          rw [a5 idx hne, List.getElem?_set]
          simp [hl, hlt]
        · exact a4 p hp i hpi hin
      · intro i hno
        have h1 : idx ≠ i := fun e => hno (name, v) (by simp) (by rw [← e]; exact hidx)
        rw [a5 i (fun p hp => hno p (by simp [hp])), List.getElem?_set, if_neg h1]
    · rw [if_neg hlt]
      obtain ⟨s', f', e, a1, a2, a3, a4, a5⟩ := storeNamed_spec look n rest slots found hl hf hk' hi' hn.2
      refine ⟨s', f', e, a1, a2, a3, ?_, fun i hno => a5 i (fun p hp => hno p (by simp [hp]))⟩
      intro p hp i hpi hin
      simp only [List.mem_cons] at hp
      rcases hp with rfl | hp
      · rw [hidx] at hpi
        cases hpi
        exact absurd hin hlt
      · exact a4 p hp i hpi hin

/-- An unknown name is found. -/
theorem storeNamed_unknown (look : String → Option Idx) (n : Nat) : ∀ (obj : List (String × V)) (slots : List (Option V)) (found : Nat),
    (∀ p ∈ obj, look p.1 = none ∨ ∃ i, look p.1 = some (.small i)) → (∃ p ∈ obj, look p.1 = none) →
    ∃ p ∈ obj, look p.1 = none ∧ storeNamed look n obj slots found = .error (.unknown p.1)
  | [], _, _, _, h => by simp at h
  | (name, v) :: rest, slots, found, hk, hex => by
    rcases hk (name, v) (by simp) with hnone | ⟨i, hi⟩
    · exact ⟨(name, v), by simp, hnone, by simp only [storeNamed, hnone]⟩
    · simp only at hi
      have hex' : ∃ p ∈ rest, look p.1 = none := by
        obtain ⟨p, hp, h⟩ := hex
        simp only [List.mem_cons] at hp
        rcases hp with rfl | hp
        · rw [hi] at h; cases h
        · exact ⟨p, hp, h⟩
      simp only [storeNamed, hi]
      split
      · obtain ⟨p, hp, h, e⟩ := storeNamed_unknown look n rest (slots.set i (some v)) (max found (i + 1)) (fun p hp => hk p (by simp [hp])) hex'
        exact ⟨p, by simp [hp], h, e⟩
      · obtain ⟨p, hp, h, e⟩ := storeNamed_unknown look n rest slots found (fun p hp => hk p (by simp [hp])) hex'
        exact ⟨p, by simp [hp], h, e⟩

theorem firstMissing_spec : ∀ (l : List (Option V)) (i : Nat),
    (firstMissing i l = none ∧ ∀ j, j < l.length → ∃ v, l[j]? = some (some v)) ∨
    ∃ j, firstMissing i l = some (i + j) ∧ l[j]? = some none ∧ ∀ k, k < j → ∃ v, l[k]? = some (some v)
  | [], i => Or.inl ⟨rfl, by simp⟩
  | none :: l, i => Or.inr ⟨0, rfl, by simp, by omega⟩
  | some v :: l, i => by
    rcases firstMissing_spec l (i + 1) with ⟨h1, h2⟩ | ⟨j, h1, h2, h3⟩
    · refine Or.inl ⟨h1, fun j hj => ?_⟩
      cases j with
      | zero => exact ⟨v, by simp⟩
      | succ j => simpa using h2 j (by simpa using hj)
    · refine Or.inr ⟨j + 1, by simp only [firstMissing, h1]; congr 1; omega, by simpa using h2, fun k hk => ?_⟩
      cases k with
      | zero => exact ⟨v, by simp⟩
      | succ k => simpa using h3 k (by omega)

theorem fillGaps_spec (m : Nat) (defaults : List V) : ∀ (l : List (Option V)) (i : Nat),
    (∀ j, j < l.length → l[j]? = some none → i + j - m < defaults.length) →
    ∃ r, fillGaps m defaults i l = some r ∧ r.length = l.length ∧
      ∀ j, j < l.length → r[j]? = match l[j]? with | some (some v) => some v | _ => defaults[i + j - m]?
  | [], i, _ => ⟨[], rfl, rfl, by simp⟩
  | some v :: l, i, h => by
    obtain ⟨r, e, hl, hr⟩ := fillGaps_spec m defaults l (i + 1) (fun j hj hn => by
      have := h (j + 1) (by simpa using hj) (by simpa using hn); omega)
    refine ⟨v :: r, by simp [fillGaps, e], by simp [hl], fun j hj => ?_⟩
    cases j with
    | zero => simp
    | succ j =>
      simp only [List.getElem?_cons_succ]
      rw [hr j (by simpa using hj), show i + 1 + j = i + (j + 1) by omega]
  | none :: l, i, h => by
    obtain ⟨r, e, hl, hr⟩ := fillGaps_spec m defaults l (i + 1) (fun j hj hn => by
      have := h (j + 1) (by simpa using hj) (by simpa using hn); omega)
    have hd : i - m < defaults.length := by simpa using h 0 (by simp) (by simp)
    have hd' : defaults[i - m]? = some defaults[i - m] := List.getElem?_eq_getElem hd
    refine ⟨defaults[i - m] :: r, by simp [fillGaps, e, hd'], by simp [hl], fun j hj => ?_⟩
    cases j with
    | zero => simp
    | succ j =>
      simp only [List.getElem?_cons_succ]
      rw [hr j (by simpa using hj), show i + 1 + j = i + (j + 1) by omega]

theorem idxOf?_spec (names : List String) (name : String) : names.idxOf? name = none ∧ name ∉ names ∨
    ∃ i, names.idxOf? name = some i ∧ names[i]? = some name := by
  induction names with
  | nil => exact Or.inl ⟨rfl, by simp⟩
  | cons a names ih =>
    rw [List.idxOf?_cons]
    by_cases h : a = name
    · exact Or.inr ⟨0, by simp [h], by simp [h]⟩
    · rcases ih with ⟨e, hn⟩ | ⟨i, e, hi⟩
      · exact Or.inl ⟨by simp [h, e], by simp [hn, Ne.symm h]⟩
      · exact Or.inr ⟨i + 1, by simp [h, e], by simpa using hi⟩

theorem idxOf?_nodup (names : List String) (hn : names.Nodup) (i : Nat) (name : String) (h : names[i]? = some name) : names.idxOf? name = some i := by
  rcases idxOf?_spec names name with ⟨-, hno⟩ | ⟨j, e, hj⟩
  · exact absurd (List.mem_of_getElem? h) hno
  · rw [e]
    congr 1
    obtain ⟨h1, h1'⟩ := List.getElem?_eq_some_iff.mp h
    obtain ⟨h2, h2'⟩ := List.getElem?_eq_some_iff.mp hj
    have hp := List.pairwise_iff_getElem.mp hn
    rcases Nat.lt_trichotomy j i with h | h | h
    · exact absurd (by rw [h2', h1']) (hp j i h2 h1 h)
    · exact h
    · exact absurd (by rw [h2', h1']) (hp i j h1 h2 h)

theorem lookup_mem (obj : List (String × V)) (name : String) :
    (obj.lookup name = none ∧ ∀ p ∈ obj, p.1 ≠ name) ∨ ∃ v, obj.lookup name = some v ∧ (name, v) ∈ obj := by
  induction obj with
  | nil => exact Or.inl ⟨rfl, by simp⟩
  | cons p obj ih =>
    obtain ⟨k, w⟩ := p
    rw [List.lookup_cons]
    by_cases h : name = k
    · subst h; exact Or.inr ⟨w, by simp, by simp⟩
    · have hb : (name == k) = false := by simp [h]
      simp only [hb]
      rcases ih with ⟨e, hn⟩ | ⟨v, e, hv⟩
      · exact Or.inl ⟨e, fun p hp => by
          rcases List.mem_cons.mp hp with rfl | hp
          · exact Ne.symm h
          · exact hn p hp⟩
      · exact Or.inr ⟨v, e, by simp [hv]⟩

/-- What a call with named arguments is to do: `required` parameters must be there. -/
inductive Meant (f : Decl) (required : Nat) (c : Comp) (this : V) (names : List String) (obj : List (String × V)) (dflt : Nat → V)
    (closures : List V) : Enter V → Prop
  /-- a function without parameters does not take named arguments -/
  | noNames (h : f.params = []) : Meant f required c this names obj dflt closures .noNames
  /-- a name which is not that of a parameter -/
  | unknown (h : f.params ≠ []) (p : String × V) (hp : p ∈ obj) (hn : p.1 ∉ names) : Meant f required c this names obj dflt closures (.unknown p.1)
  /-- the first required parameter which is missing -/
  | missing (h : f.params ≠ []) (hk : ∀ p ∈ obj, p.1 ∈ names) (i : Nat) (hi : i < required) (name : String) (hname : names[i]? = some name)
      (hm : obj.lookup name = none) (hfirst : ∀ j, j < i → ∀ name, names[j]? = some name → ∃ v, obj.lookup name = some v) :
      Meant f required c this names obj dflt closures (.missing name)
  /-- each parameter is the argument of its name, or its default value -/
  | call (h : f.params ≠ []) (hk : ∀ p ∈ obj, p.1 ∈ names) (hreq : ∀ i, i < required → ∀ name, names[i]? = some name → ∃ v, obj.lookup name = some v)
      (regs : List (Cell V))
      (hb : Bound f c this [] (fun i => (names[i]?.bind fun name => obj.lookup name).getD (dflt i)) closures regs) :
      Meant f required c this names obj dflt closures (.regs regs)

/-- The map of names exists if there are parameters (core/kos_module.c:935). -/
def lookFor (f : Decl) (proto : String → Option Idx) (names : List String) : Option (String → Option Idx) :=
  if f.params = [] then none else some (lookName proto names)

/-- The full claim: whatever else is in the prototype of objects. -/
def C32_full : Prop := ∀ (V : Type) (void this : V) (f : Decl) (extra : Nat) (c : Comp) (names : List String) (proto : String → Option Idx)
  (obj : List (String × V)) (dflt : Nat → V) (closures : List V),
  compile f extra = some c → f.EllOk → closures.length = f.binds → names.length = f.params.length → names.Nodup → (obj.map Prod.fst).Nodup →
  Meant f f.req.length c this names obj dflt closures
    (enterNamed (object void f c dflt closures) (lookFor f proto names) (fun i => names[i]?.getD "") this obj)

/-- **C32**, if names which are not those of parameters are not properties of the prototype of objects.  What is missing: a name which is such a
property is not found to be unknown (`C32_violated`); required parameters after the last used one may be missing (as in C31). -/
theorem C32_partial (void this : V) (f : Decl) (extra : Nat) (c : Comp) (names : List String) (proto : String → Option Idx)
    (obj : List (String × V)) (dflt : Nat → V) (closures : List V) (hc : compile f extra = some c) (he : f.EllOk) (hcl : closures.length = f.binds)
    (hnl : names.length = f.params.length) (hnn : names.Nodup) (hon : (obj.map Prod.fst).Nodup)
    (hproto : ∀ p ∈ obj, p.1 ∉ names → proto p.1 = none) :
    Meant f (min f.numArgs f.req.length) c this names obj dflt closures
      (enterNamed (object void f c dflt closures) (lookFor f proto names) (fun i => names[i]?.getD "") this obj) := by
  by_cases hp : f.params = []
  · simp only [lookFor, hp, if_true, enterNamed, namedArgs]
    exact .noNames hp
  have m := object_made void f extra c dflt closures hc he hcl
  obtain ⟨c1, c2, c3, c4, c5, c6, c7, c8, c9, c10, c11⟩ := compile_eq f extra _ hc
  have hn := numArgs_le f
  have hl := length_params f
  have hmax : c.numDef + c.minArgs = f.numArgs := by omega
  simp only [lookFor, hp, if_false, enterNamed, namedArgs]
  -- what the map of names gives
  have hlook : ∀ p ∈ obj, lookName proto names p.1 = none ∧ p.1 ∉ names ∨ ∃ i, lookName proto names p.1 = some (.small i) ∧ names[i]? = some p.1 := by
    intro p hpm
    rcases idxOf?_spec names p.1 with ⟨e, hno⟩ | ⟨i, e, hi⟩
    · exact Or.inl ⟨by simp only [lookName, e]; exact hproto p hpm hno, hno⟩
    · exact Or.inr ⟨i, by simp only [lookName, e], hi⟩
  have hlookn : ∀ i name, names[i]? = some name → lookName proto names name = some (.small i) := fun i name h => by
    simp only [lookName, idxOf?_nodup names hnn i name h]
  show Meant f (min f.numArgs f.req.length) c this names obj dflt closures
    (match (match storeNamed (lookName proto names) (c.numDef + c.minArgs) obj (List.replicate (c.numDef + c.minArgs) none) 0 with
      | .error e => Except.error e
      | .ok (slots, found) =>
        match firstMissing 0 (slots.take c.minArgs) with
        | some i => .error (.missing (names[i]?.getD ""))
        | none =>
          match fillGaps c.minArgs (makeDefaults void f c dflt) 0 (slots.take (max c.minArgs found)) with
          | none => .error .bad
          | some l => .ok (if max c.minArgs found < c.numDef + c.minArgs then l ++ (makeDefaults void f c dflt).drop (max c.minArgs found - c.minArgs) else l)) with
    | .error e => e
    | .ok args => enter (object void f c dflt closures) this args)
  rw [hmax]
  by_cases hk : ∀ p ∈ obj, p.1 ∈ names
  · have hlook' : ∀ p ∈ obj, ∃ i, lookName proto names p.1 = some (.small i) ∧ names[i]? = some p.1 := fun p hpm => by
      rcases hlook p hpm with ⟨-, h⟩ | h
      · exact absurd (hk p hpm) h
      · exact h
    obtain ⟨slots, found, e, s1, s2, s3, s4, s5⟩ := storeNamed_spec (lookName proto names) f.numArgs obj (List.replicate f.numArgs none) 0 (by simp) (by omega)
      (fun p hpm => by obtain ⟨i, h, -⟩ := hlook' p hpm; exact ⟨i, h⟩)
      (fun p hpm q hqm i h1 h2 => by
        obtain ⟨i1, a1, b1⟩ := hlook' p hpm
        obtain ⟨i2, a2, b2⟩ := hlook' q hqm
        rw [h1] at a1; rw [h2] at a2
        cases a1; cases a2
        rw [b1] at b2
        exact Option.some.inj b2) hon
    -- slots in terms of names
    have hslot : ∀ i, i < f.numArgs → ∀ name, names[i]? = some name → slots[i]? = some (obj.lookup name) ∧ (∀ v, obj.lookup name = some v → i < found) := by
      intro i hi name hname
      rcases lookup_mem obj name with ⟨h1, h2⟩ | ⟨v, h1, h2⟩
      · refine ⟨?_, fun v hv => by rw [h1] at hv; cases hv⟩
        rw [s5 i, h1]
        · simp [hi]
        · intro p hpm h
          obtain ⟨j, a, b⟩ := hlook' p hpm
          rw [h] at a; cases a
          rw [hname] at b
          exact h2 p hpm (Option.some.inj b).symm
      · have := s4 (name, v) h2 i (hlookn i name hname) hi
        exact ⟨by rw [this.1, h1], fun _ _ => this.2⟩
    have hname : ∀ i, i < f.numArgs → ∃ name, names[i]? = some name := fun i hi => ⟨names[i]'(by omega), List.getElem?_eq_getElem (by omega)⟩
    rw [e]
    simp only
    rcases firstMissing_spec (slots.take c.minArgs) 0 with ⟨h1, h2⟩ | ⟨j, h1, h2, h3⟩
    · rw [h1]
      simp only
      have hreq : ∀ i, i < min f.numArgs f.req.length → ∀ name, names[i]? = some name → ∃ v, obj.lookup name = some v := by
        intro i hi name hnm
        obtain ⟨v, hv⟩ := h2 i (by simp; omega)
        rw [List.getElem?_take, if_pos (by omega), (hslot i (by omega) name hnm).1] at hv
        exact ⟨v, Option.some.inj hv⟩
      have hgap : ∀ i, i < f.numArgs → slots[i]? = some none → c.minArgs ≤ i := by
        intro i hi hnone
        refine Nat.le_of_not_lt fun hlt => ?_
        obtain ⟨v, hv⟩ := h2 i (by simp; omega)
        rw [List.getElem?_take, if_pos hlt, hnone] at hv
        cases hv
      have hdl : (makeDefaults void f c dflt).length = f.numArgs - f.req.length := by simp [makeDefaults, c5]
      obtain ⟨l, e2, l1, l2⟩ := fillGaps_spec c.minArgs (makeDefaults void f c dflt) (slots.take (max c.minArgs found)) 0 (fun j hj hnone => by
        simp only [List.length_take] at hj
        rw [List.getElem?_take, if_pos (by omega)] at hnone
        have := hgap j (by omega) hnone
        omega)
      rw [e2]
      simp only
      have hlast : (slots.take (max c.minArgs found)).length = max c.minArgs found := by simp; omega
      rw [hlast] at l1 l2
      -- the list of arguments
      have hargs : ∃ args : List V, (if max c.minArgs found < f.numArgs then l ++ (makeDefaults void f c dflt).drop (max c.minArgs found - c.minArgs) else l) = args ∧
          args.length = f.numArgs ∧ ∀ i, f.Used i → args[i]? = some ((names[i]?.bind fun name => obj.lookup name).getD (dflt i)) := by
        refine ⟨_, rfl, ?_, ?_⟩
        · split
          · simp only [List.length_append, List.length_drop, l1, hdl]; omega
          · omega
        · intro i hi
          have hi' : i < f.numArgs := by obtain ⟨p, hp, hu⟩ := hi; exact used_lt f i p hp hu
          obtain ⟨name, hnm⟩ := hname i hi'
          obtain ⟨hs, hf⟩ := hslot i hi' name hnm
          rw [hnm]
          simp only [Option.bind_some]
          by_cases hlt : i < max c.minArgs found
          · have hget : l[i]? = some ((obj.lookup name).getD (dflt i)) := by
              rw [l2 i hlt, List.getElem?_take, if_pos hlt, hs]
              cases hlk : obj.lookup name with
              | some v => rfl
              | none =>
                rw [hlk] at hs
                have := hgap i hi' hs
                simp only [Nat.zero_add, Option.getD_none]
                rw [show i - c.minArgs = i - f.req.length by omega]
                exact default_used void f extra c hc dflt i hi (by omega)
            split
            · rw [List.getElem?_append_left (by omega)]; exact hget
            · exact hget
          · have hlk : obj.lookup name = none := by
              cases hlk : obj.lookup name with
              | none => rfl
              | some v => have := hf v hlk; omega
            rw [if_pos (by omega), List.getElem?_append_right (by omega), List.getElem?_drop, hlk]
            simp only [Option.getD_none]
            rw [show max c.minArgs found - c.minArgs + (i - l.length) = i - f.req.length by omega]
            exact default_used void f extra c hc dflt i hi (by omega)
      obtain ⟨args, ea, la, ga⟩ := hargs
      rw [ea]
      obtain ⟨regs, r1, r2, r3, r4, r5⟩ := read_param void this f extra c dflt closures args hc he hcl (by omega) (by omega)
      rw [r1]
      refine .call hp hk hreq regs ⟨?_, ?_, r3, r4⟩
      · intro i hi
        have hi' : i < f.numArgs := by obtain ⟨p, hp, hu⟩ := hi; exact used_lt f i p hp hu
        rw [r5 i hi, if_neg (by omega)]
        simp only [meant, ga i hi, List.getElem?_nil, Option.getD_some, Option.getD_none]
      · intro hell
        rw [r2 hell, List.drop_eq_nil_of_le (by omega)]
        simp
    · rw [h1]
      simp only [Nat.zero_add]
      have hj : j < c.minArgs := by
        have := (List.getElem?_eq_some_iff.mp h2).1
        simp only [List.length_take] at this; omega
      obtain ⟨name, hnm⟩ := hname j (by omega)
      rw [List.getElem?_take, if_pos hj, (hslot j (by omega) name hnm).1] at h2
      rw [hnm]
      refine .missing hp hk j (by omega) name hnm (Option.some.inj h2) fun k hkj nm hk' => ?_
      obtain ⟨v, hv⟩ := h3 k hkj
      rw [List.getElem?_take, if_pos (by omega), (hslot k (by omega) nm hk').1] at hv
      exact ⟨v, Option.some.inj hv⟩
  · have hex : ∃ p ∈ obj, lookName proto names p.1 = none := by
      simp only [Classical.not_forall] at hk
      obtain ⟨p, hpm, hno⟩ := hk
      rcases hlook p hpm with ⟨h, -⟩ | ⟨i, -, h⟩
      · exact ⟨p, hpm, h⟩
      · exact absurd (List.mem_of_getElem? h) hno
    obtain ⟨p, hpm, h, e⟩ := storeNamed_unknown (lookName proto names) f.numArgs obj (List.replicate f.numArgs none) 0
      (fun p hpm => by
        rcases hlook p hpm with ⟨h, -⟩ | ⟨i, h, -⟩
        · exact Or.inl h
        · exact Or.inr ⟨i, h⟩) hex
    rw [e]
    refine .unknown hp p hpm ?_
    rcases hlook p hpm with ⟨-, h'⟩ | ⟨i, h', -⟩
    · exact h'
    · rw [h] at h'; cases h'

/-! ### Counterexample -/

/-- The prototype of objects has the property `iterator`, a function. -/
def objectProto (name : String) : Option Idx := if name = "iterator" then some .other else none

/-- `f(iterator = 1)` for `fun f(a = 0) { return a }`: the name is found in the prototype of the map of names, and what is found there is taken
for an index (an assertion fails, or the index is what the bits of the pointer say). -/
theorem C32_proto_violated :
    let f : Decl := { req := [], opt := [true], ell := none, indep := 0, this := false, binds := 0 }
    (compile f 0).map (fun c => enterNamed (object 999 f c id []) (lookFor f objectProto ["a"]) (fun _ => "") 0 [("iterator", 1)]) = some .bad ∧
    (compile f 0).map (fun c => enterNamed (object 999 f c id []) (lookFor f objectProto ["a"]) (fun _ => "") 0 [("other", 1)]) = some (.unknown "other") := by
  decide +kernel

theorem C32_violated : ¬ C32_full := fun h => by
  have h0 := h Nat 999 0 { req := [], opt := [true], ell := none, indep := 0, this := false, binds := 0 } 0 ⟨1, 0, 1, 0, 255, 255, 255, 255, [0]⟩ ["a"] objectProto
    [("iterator", 1)] id [] (by decide +kernel) (by simp [Decl.EllOk]) rfl rfl (by simp) (by simp)
  have e : enterNamed (object 999 { req := [], opt := [true], ell := none, indep := 0, this := false, binds := 0 } ⟨1, 0, 1, 0, 255, 255, 255, 255, [0]⟩ id [])
      (lookFor { req := [], opt := [true], ell := none, indep := 0, this := false, binds := 0 } objectProto ["a"]) (fun i => (["a"] : List String)[i]?.getD "") 0
      [("iterator", 1)] = .bad := by decide +kernel
  rw [e] at h0
  cases h0

/-! ### Example -/

/-- `fun(a, b, c = 2, d = 3)` with `d` and `a, b` given in some order, and with `b` missing. -/
def four : Decl := { req := [true, true], opt := [true, true], ell := none, indep := 0, this := false, binds := 0 }

example : (compile four 0).map (fun c => enterNamed (object 999 four c id []) (lookFor four objectProto ["a", "b", "c", "d"]) (fun _ => "") 0
    [("d", 13), ("a", 10), ("b", 11)]) = some (.regs [.val 10, .val 11, .val 2, .val 13]) := by decide +kernel

example : (compile four 0).map (fun c => enterNamed (object 999 four c id []) (lookFor four objectProto ["a", "b", "c", "d"])
    (fun i => ["a", "b", "c", "d"][i]?.getD "") 0 [("d", 13), ("a", 10)]) = some (.missing "b") := by decide +kernel

end Verif.Call
