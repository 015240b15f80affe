import Verif.Re.ParseFacts

/-!
# The compiler makes the words of an expression, continued

Classes, atoms, sequences, groups and alternatives.
-/

namespace Verif.Re

open Spec

/-! ### Classes -/

theorem classChar_ok {c : Ctx} {x : ClassChar} {rest : List Nat} (hx : x.ok) (hin : c.input = x.text ++ rest) :
    classChar c = some (x.code, { c with input := rest }) := by
  unfold classChar
  rw [hin]
  cases x with
  | raw y =>
    simp only [ClassChar.text, List.singleton_append, ClassChar.code]
    rw [if_neg hx.2.2]
  | escaped y =>
    simp only [ClassChar.text, List.cons_append, List.nil_append, ClassChar.code, if_true]
    rw [if_pos]
    simp only [ClassChar.ok] at hx
    simp only [classEscapes, List.mem_cons, List.not_mem_nil, or_false]
    omega
  | control y => cases y <;> rfl

theorem ClassChar.head {x : ClassChar} (hx : x.ok) (rest : List Nat) :
    ∃ h, (x.text ++ rest).head? = some h ∧ h ≠ 45 ∧ h ≠ 93 := by
  cases x with
  | raw y => exact ⟨y, rfl, hx.2.1, hx.1⟩
  | escaped y => exact ⟨92, rfl, by omega, by omega⟩
  | control y => exact ⟨92, rfl, by omega, by omega⟩

theorem ClassItem.head {x : ClassItem} (hx : x.ok) (rest : List Nat) :
    ∃ h, (x.text ++ rest).head? = some h ∧ h ≠ 45 ∧ h ≠ 93 := by
  cases x with
  | one y => exact ClassChar.head hx rest
  | range a b =>
    simp only [ClassItem.text, List.append_assoc]
    exact ClassChar.head hx.1 _

theorem classItem_ok {c : Ctx} {i : ClassItem} {rest : List Nat} (hi : i.ok) (hin : c.input = i.text ++ rest)
    (hrest : rest.head? ≠ some 45) (id : Nat) :
    classItem c id = some ({ c with input := rest }.addRange id i.first i.last) := by
  unfold classItem
  cases i with
  | one x =>
    rw [classChar_ok hi hin]
    have hp : ¬ ({ c with input := rest } : Ctx).peek = some 45 := hrest
    simp only [if_neg hp, if_neg (Nat.lt_irrefl _)]
    rfl
  | range a b =>
    simp only [ClassItem.text, List.append_assoc] at hin
    rw [classChar_ok hi.1 hin]
    simp only [Ctx.peek, List.cons_append, List.head?_cons, if_true]
    rw [classChar_ok (c := Ctx.consume _) hi.2.1 rfl]
    simp only
    rw [if_neg (by have := hi.2.2; omega)]
    rfl

/-- The ranges of items added to ranges. -/
def addItems (rs : List Range) (items : List ClassItem) : List Range :=
  items.foldl (fun rs i => addRange rs i.first i.last) rs

theorem classLoop_ok : ∀ (items : List ClassItem) (n : Nat) (c : Ctx) (rs : List Range) (rest : List Nat), items ≠ [] →
    (∀ i ∈ items, i.ok) → c.input = items.flatMap ClassItem.text ++ 93 :: rest → items.length ≤ n →
    classLoop c.descs.length n (c.withClass rs) = some ({ c with input := rest }.withClass (addItems rs items))
  | [], _, _, _, _, hne, _, _, _ => absurd rfl hne
  | [i], 0, _, _, _, _, _, _, hn => by simp at hn
  | [i], n + 1, c, rs, rest, _, hok, hin, _ => by
    have hi : (c.withClass rs).input = i.text ++ 93 :: rest := by simpa [Ctx.withClass] using hin
    simp only [classLoop]
    rw [classItem_ok (hok i (by simp)) hi (by simp)]
    have := withClass_addRange { c with input := 93 :: rest } rs i.first i.last
    have he : ({ c.withClass rs with input := 93 :: rest } : Ctx) = Ctx.withClass { c with input := 93 :: rest } rs := rfl
    simp only at this
    rw [he, this]
    simp only [Ctx.peek, Ctx.withClass, List.head?_cons, if_true]
    rfl
  | i :: j :: items, 0, _, _, _, _, _, _, hn => by simp at hn
  | i :: j :: items, n + 1, c, rs, rest, _, hok, hin, hn => by
    let rest' := (j :: items).flatMap ClassItem.text ++ 93 :: rest
    have hi : (c.withClass rs).input = i.text ++ rest' := by
      simp only [Ctx.withClass, hin, rest', List.flatMap_cons, List.append_assoc]
    obtain ⟨h, hh, h1, h2⟩ := ClassItem.head (hok j (by simp)) (items.flatMap ClassItem.text ++ 93 :: rest)
    have hh' : rest'.head? = some h := by
      simp only [rest', List.flatMap_cons, List.append_assoc]
      exact hh
    simp only [classLoop]
    rw [classItem_ok (hok i (by simp)) hi (by rw [hh']; simp [h1])]
    have := withClass_addRange { c with input := rest' } rs i.first i.last
    have he : ({ c.withClass rs with input := rest' } : Ctx) = Ctx.withClass { c with input := rest' } rs := rfl
    simp only at this
    rw [he, this]
    have hp : ¬ (Ctx.withClass { c with input := rest' } (addRange rs i.first i.last)).peek = some 93 := by
      show ¬ rest'.head? = some 93
      rw [hh']; simp [h2]
    simp only [if_neg hp]
    exact classLoop_ok (j :: items) n { c with input := rest' } (addRange rs i.first i.last) rest (by simp)
      (fun x hx => hok x (by simp [hx])) rfl (by simpa using hn)

def pairsOf (items : List ClassItem) : List (Nat × Nat) := items.map fun i => (i.first, i.last)

theorem addItems_eq (items : List ClassItem) : addItems [] items = rangesOf (pairsOf items) := by
  simp [addItems, rangesOf, pairsOf, List.foldl_map]

theorem covers_pairs (items : List ClassItem) (c : Nat) : covers (pairsOf items) c = listed items c := by
  simp [covers, listed, pairsOf, List.any_map, Function.comp_def]

theorem items_match {items : List ClassItem} (hne : items ≠ []) (hok : ∀ i ∈ items, i.ok) (ho : orderly items) (c : Nat) :
    matchClass (addItems [] items) c = some (listed items c) := by
  rw [addItems_eq, rangesOf_match, covers_pairs]
  · simpa [pairsOf] using hne
  · intro p hp
    obtain ⟨i, hi, rfl⟩ := List.mem_map.1 hp
    have := hok i hi
    cases i with
    | one x => exact Nat.le_refl _
    | range a b => exact this.2.2
  · intro pre p post he hs
    obtain ⟨l1, l2, rfl, h1, h2⟩ := List.map_eq_append_iff.1 he
    obtain ⟨i, l3, rfl, h3, h4⟩ := List.map_eq_cons_iff.1 h2
    subst h1
    subst h3
    refine ho l1 i l3 rfl ?_
    have hc : ∀ c, covers (l1.map fun i => (i.first, i.last)) c = listed l1 c := covers_pairs l1
    simp only [hc] at hs
    exact hs

/-! ### What an atom does to the context -/

/-- The words `w` have been added, `rest` is left. -/
structure Grew (c c' : Ctx) (w rest : List Nat) : Prop where
  input : c'.input = rest
  buf : c'.buf = c.buf ++ w
  mult : c'.canMult = true
  groups : c'.groups = c.groups
  counts : c'.counts = c.counts
  depth : c'.depth = c.depth
  ext : ∀ id l, c.cls id = some l → c'.cls id = some l
  inv : Inv c'

theorem ClassIs.ext {T T' : Nat → Option (List Range)} (h : ∀ id l, T id = some l → T' id = some l) {id : Nat}
    {P : Nat → Bool} (hc : ClassIs T id P) : ClassIs T' id P := by
  obtain ⟨rs, h1, h2⟩ := hc
  exact ⟨rs, h _ _ h1, h2⟩

theorem grew_simple {c : Ctx} (hc : Inv c) (w rest : List Nat) :
    Grew c { c with input := rest, buf := c.buf ++ w, canMult := true } w rest := by
  refine ⟨rfl, rfl, rfl, rfl, rfl, rfl, fun _ _ h => h, ?_⟩
  have h1 := hc.desc
  have h2 := hc.cnt
  have h3 := hc.grp
  exact ⟨by simp; omega, by simp; omega, by simp; omega, hc.tab, hc.dig, hc.wrd⟩

theorem emit_simple {c : Ctx} (hc : Inv c) {rest : List Nat} {code : Nat} {args : List Nat}
    (hs : c.buf.length + (1 + args.length) ≤ 32767) (ha : ∀ a ∈ args, a < 65536) :
    ∃ c', Ctx.emit { c with input := rest } code args = some c' ∧ Grew c c' (code :: args) rest := by
  refine ⟨_, emit_ok (by simp only; omega), ?_⟩
  have : args.map (· % 65536) = args := by
    conv => rhs; rw [← List.map_id args]
    exact List.map_congr_left fun a h => Nat.mod_eq_of_lt (ha a h)
  rw [this]
  exact grew_simple hc (code :: args) rest

theorem grew_class {c : Ctx} (hc : Inv c) {w rest : List Nat} (hw : w ≠ []) (rs : List Range) {d wd : Option Nat}
    (hd : ∀ id, d = some id → c.digit = some id ∨
      (id = c.descs.length ∧ ∀ x, matchClass rs x = some (decide (48 ≤ x) && decide (x ≤ 57))))
    (hwd : ∀ id, wd = some id → c.word = some id ∨ (id = c.descs.length ∧ ∀ x, matchClass rs x = some (wordChar x))) :
    Grew c { c.withClass rs with input := rest, buf := c.buf ++ w, canMult := true, digit := d, word := wd } w rest := by
  have hext := withClass_ext hc.tab rs
  have hwl : 0 < w.length := List.length_pos_iff.2 hw
  refine ⟨rfl, rfl, rfl, rfl, rfl, rfl, hext, ?_⟩
  have h1 := hc.desc
  have h2 := hc.cnt
  have h3 := hc.grp
  refine ⟨by simp [Ctx.withClass]; omega, by simp [Ctx.withClass]; omega, by simp [Ctx.withClass]; omega,
    withClass_tab hc.tab rs, fun id h => ?_, fun id h => ?_⟩
  · rcases hd id h with h | ⟨rfl, h'⟩
    · have := hc.dig id h
      exact ⟨by simp [Ctx.withClass]; omega, this.2.ext hext⟩
    · exact ⟨by simp [Ctx.withClass], rs, withClass_cls c rs, h'⟩
  · rcases hwd id h with h | ⟨rfl, h'⟩
    · have := hc.wrd id h
      exact ⟨by simp [Ctx.withClass]; omega, this.2.ext hext⟩
    · exact ⟨by simp [Ctx.withClass], rs, withClass_cls c rs, h'⟩

theorem parseClass_ok {c : Ctx} (hc : Inv c) {neg : Bool} {items : List ClassItem} {rest : List Nat}
    (hok : (Atom.cls neg items).ok) (ho : orderly items)
    (hin : c.input = (if neg then [94] else []) ++ items.flatMap ClassItem.text ++ 93 :: rest)
    (hs : c.buf.length + 2 ≤ 32767) :
    ∃ c' w, parseClass c = some c' ∧ AtomCode c'.cls (.cls neg items) w ∧ w.length = 2 ∧ Grew c c' w rest := by
  obtain ⟨hne, hall, hneg⟩ := hok
  let mid := items.flatMap ClassItem.text ++ 93 :: rest
  have hn : decide (c.generateClass.peek = some 94) = neg := by
    show decide (c.input.head? = some 94) = neg
    rw [hin]
    cases neg with
    | true => simp
    | false =>
      have h := hneg rfl
      cases items with
      | nil => exact absurd rfl hne
      | cons i items =>
        obtain ⟨x, hx, _, _⟩ := ClassItem.head (hall i (by simp)) (items.flatMap ClassItem.text)
        simp only [List.flatMap_cons, hx] at h
        simp only [Bool.false_eq_true, if_false, List.nil_append, List.flatMap_cons, List.append_assoc,
          decide_eq_false_iff_not]
        obtain ⟨y, hy, _, _⟩ := ClassItem.head (hall i (by simp)) (items.flatMap ClassItem.text ++ 93 :: rest)
        have hxy : x = y := by
          cases ht : i.text with
          | nil =>
            have hd : ∃ h, (i.text ++ []).head? = some h := by
              obtain ⟨h, h1, _⟩ := ClassItem.head (hall i (by simp)) []
              exact ⟨h, h1⟩
            rw [ht] at hd
            simp at hd
          | cons z zs =>
            rw [ht] at hx hy
            simp only [List.cons_append, List.head?_cons, Option.some.injEq] at hx hy
            omega
        rw [hy, ← hxy]
        exact h
  have hcons : (if neg = true then c.generateClass.consume else c.generateClass) =
      Ctx.withClass { c with input := mid } [] := by
    rw [generateClass_eq]
    cases neg
    · simp only [Bool.false_eq_true, if_false, List.nil_append] at hin ⊢
      show _ = Ctx.withClass { c with input := items.flatMap ClassItem.text ++ 93 :: rest } []
      rw [← hin]
    · simp only [if_true] at hin ⊢
      simp only [Ctx.consume, Ctx.withClass, hin]
      rfl
  have hlen : items.length ≤ mid.length + 1 := by
    have : ∀ l : List ClassItem, (∀ i ∈ l, i.ok) → l.length ≤ (l.flatMap ClassItem.text).length := by
      intro l
      induction l with
      | nil => intro _; exact Nat.le_refl _
      | cons i l ih =>
        intro h
        have h1 := ih fun x hx => h x (by simp [hx])
        have h2 : 0 < i.text.length := by
          obtain ⟨x, hx, _⟩ := ClassItem.head (h i (by simp)) []
          rw [List.append_nil] at hx
          cases ht : i.text with
          | nil => rw [ht] at hx; cases hx
          | cons => simp
        simp only [List.flatMap_cons, List.length_append, List.length_cons]
        omega
    have := this items hall
    simp only [mid, List.length_append]
    omega
  have hmod : c.descs.length % 65536 = c.descs.length := by have := hc.desc; omega
  have hloop := classLoop_ok items (mid.length + 1) { c with input := mid } [] rest hne hall rfl hlen
  have hrun : parseClass c = some { c.withClass (addItems [] items) with
      input := rest, buf := c.buf ++ [negInstr neg, c.descs.length], canMult := true } := by
    unfold parseClass
    simp only [hn, hcons]
    have h1 : (Ctx.withClass { c with input := mid } []).input.length + 1 = mid.length + 1 := rfl
    rw [h1]
    simp only at hloop
    rw [hloop]
    simp only
    rw [emit_ok (by simp [Ctx.withClass]; omega)]
    simp only [Ctx.withClass, List.map_cons, List.map_nil, hmod, negInstr]
  refine ⟨_, [negInstr neg, c.descs.length], hrun, ?_, rfl, ?_⟩
  · exact ⟨c.descs.length, rfl, _, withClass_cls c _, items_match hne hall ho⟩
  · exact grew_class hc (by simp) _ (fun id h => .inl h) (fun id h => .inl h)

theorem digit_match (x : Nat) : matchClass (rangesOf [(48, 57)]) x = some (decide (48 ≤ x) && decide (x ≤ 57)) := by
  rw [rangesOf_match (by simp) (by simp)]
  · simp [covers]
  · intro pre p post h
    cases pre with
    | nil => simp [Plain, covers]
    | cons _ _ => simp at h

theorem word_match (x : Nat) : matchClass (rangesOf [(97, 122), (95, 95), (65, 90), (48, 57)]) x = some (wordChar x) := by
  rw [rangesOf_match (by simp) (by simp)]
  · congr 1
    rw [Bool.eq_iff_iff]
    simp only [covers, wordChar, List.any_cons, List.any_nil, Bool.or_false, Bool.or_eq_true, Bool.and_eq_true,
      decide_eq_true_eq, beq_iff_eq]
    omega
  · intro pre p post h ⟨_, h1, _⟩
    have hb := h1 (p.2 + 1)
    match pre, h with
    | [], h =>
      simp only [List.nil_append, List.cons.injEq] at h
      rw [← h.1] at hb
      simp [covers] at hb
    | [a], h =>
      simp only [List.cons_append, List.nil_append, List.cons.injEq] at h
      rw [← h.1, ← h.2.1] at hb
      simp [covers] at hb
    | [a, b], h =>
      simp only [List.cons_append, List.nil_append, List.cons.injEq] at h
      rw [← h.1, ← h.2.1, ← h.2.2.1] at hb
      simp [covers] at hb
    | [a, b, c], h =>
      simp only [List.cons_append, List.nil_append, List.cons.injEq] at h
      rw [← h.1, ← h.2.1, ← h.2.2.1, ← h.2.2.2.1] at hb
      simp [covers] at hb
    | a :: b :: c :: d :: pre, h => simp at h

theorem digitClass_ok {c : Ctx} (hc : Inv c) {rest : List Nat} (hs : c.buf.length + 2 ≤ 32767) (neg : Bool) :
    ∃ c' w, (Ctx.digitClass { c with input := rest }).2.emit (negInstr neg) [(Ctx.digitClass { c with input := rest }).1]
      = some c' ∧ AtomCode c'.cls (.digit neg) w ∧ w.length = 2 ∧ Grew c c' w rest := by
  have hd := hc.desc
  unfold Ctx.digitClass
  cases h : c.digit with
  | some id =>
    have hi := hc.dig id h
    obtain ⟨c', h1, h2⟩ := emit_simple hc (rest := rest) (code := negInstr neg) (args := [id]) (by simp; omega) (by simp; omega)
    rw [h] at h1
    exact ⟨c', [negInstr neg, id], h1, ⟨id, rfl, hi.2.ext h2.ext⟩, rfl, h2⟩
  | none =>
    have hmod : c.descs.length % 65536 = c.descs.length := by omega
    have hg : (Ctx.addRange (Ctx.generateClass { c with input := rest, digit := none }) c.descs.length 48 57) =
        Ctx.withClass { c with input := rest, digit := none } (rangesOf [(48, 57)]) := by
      rw [generateClass_eq]
      exact withClass_addRange { c with input := rest, digit := none } [] 48 57
    simp only at hg ⊢
    rw [hg]
    rw [emit_ok (by simp [Ctx.withClass]; omega)]
    refine ⟨_, [negInstr neg, c.descs.length], rfl, ?_, rfl, ?_⟩
    · exact ⟨c.descs.length, rfl, _, withClass_cls c _, digit_match⟩
    · simp only [Ctx.withClass, List.map_cons, List.map_nil, hmod]
      exact grew_class hc (by simp) _ (fun id h => .inr ⟨(Option.some.inj h).symm, digit_match⟩) (fun id h => .inl h)

theorem wordClass_ok {c : Ctx} (hc : Inv c) {rest : List Nat} (hs : c.buf.length + 2 ≤ 32767) (neg : Bool) :
    ∃ c' w, (Ctx.wordClass { c with input := rest }).2.emit (negInstr neg) [(Ctx.wordClass { c with input := rest }).1]
      = some c' ∧ AtomCode c'.cls (.word neg) w ∧ w.length = 2 ∧ Grew c c' w rest := by
  have hd := hc.desc
  unfold Ctx.wordClass
  cases h : c.word with
  | some id =>
    have hi := hc.wrd id h
    obtain ⟨c', h1, h2⟩ := emit_simple hc (rest := rest) (code := negInstr neg) (args := [id]) (by simp; omega) (by simp; omega)
    rw [h] at h1
    exact ⟨c', [negInstr neg, id], h1, ⟨id, rfl, hi.2.ext h2.ext⟩, rfl, h2⟩
  | none =>
    have hmod : c.descs.length % 65536 = c.descs.length := by omega
    have hg : ((((Ctx.generateClass { c with input := rest, word := none }).addRange c.descs.length 97 122).addRange
        c.descs.length 95 95).addRange c.descs.length 65 90).addRange c.descs.length 48 57 =
        Ctx.withClass { c with input := rest, word := none } (rangesOf [(97, 122), (95, 95), (65, 90), (48, 57)]) := by
      rw [generateClass_eq]
      have := withClass_addRange { c with input := rest, word := none }
      simp only at this
      simp only [this]
      rfl
    simp only at hg ⊢
    rw [hg]
    rw [emit_ok (by simp [Ctx.withClass]; omega)]
    refine ⟨_, [negInstr neg, c.descs.length], rfl, ?_, rfl, ?_⟩
    · exact ⟨c.descs.length, rfl, _, withClass_cls c _, word_match⟩
    · simp only [Ctx.withClass, List.map_cons, List.map_nil, hmod]
      exact grew_class hc (by simp) _ (fun id h => .inl h) (fun id h => .inr ⟨(Option.some.inj h).symm, word_match⟩)

/-! ### Atoms -/

theorem special_escapes {x : Nat} (h : special x ∨ x = 93 ∨ x = 34) : x ∈ escapes := by
  simp only [special] at h
  simp only [escapes, List.mem_cons, List.not_mem_nil, or_false]
  omega

theorem parseEscape_word {c : Ctx} {x : Nat} {rest : List Nat} (hin : c.input = x :: rest) :
    parseEscape c = if x ∈ escapes then Ctx.emit { c with input := rest } 0 [x]
    else if x = 60 then Ctx.emit { c with input := rest } 7 [2]
    else if x = 62 then Ctx.emit { c with input := rest } 7 [4]
    else if x = 98 then Ctx.emit { c with input := rest } 7 [6]
    else if x = 66 then Ctx.emit { c with input := rest } 7 [1]
    else if x = 100 then (Ctx.digitClass { c with input := rest }).2.emit 3 [(Ctx.digitClass { c with input := rest }).1]
    else if x = 68 then (Ctx.digitClass { c with input := rest }).2.emit 4 [(Ctx.digitClass { c with input := rest }).1]
    else if x = 119 then (Ctx.wordClass { c with input := rest }).2.emit 3 [(Ctx.wordClass { c with input := rest }).1]
    else if x = 87 then (Ctx.wordClass { c with input := rest }).2.emit 4 [(Ctx.wordClass { c with input := rest }).1]
    else match spaceEscape x with
      | some y => Ctx.emit { c with input := rest } 0 [y]
      | none => none := by
  unfold parseEscape
  rw [hin]
  rfl

/-- The orderly classes of an atom. -/
def Atom.orderly : Atom → Prop
  | .cls _ items => Spec.orderly items
  | _ => True

theorem consume_eq {c : Ctx} {x : Nat} {rest : List Nat} (h : c.input = x :: rest) :
    c.consume = { c with input := rest } := by
  simp [Ctx.consume, h]

theorem parseSingle_atom {c : Ctx} (hc : Inv c) {a : Atom} (hok : a.ok) (ho : Atom.orderly a) {rest : List Nat}
    (hin : c.input = a.text ++ rest) (hs : c.buf.length + a.size ≤ 32767) (n : Nat) :
    ∃ c' w, parseSingle (n + 1) c = some c' ∧ AtomCode c'.cls a w ∧ w.length = a.size ∧ Grew c c' w rest := by
  have hpeek : ∀ x r, c.input = x :: r → c.peek = some x := by
    intro x r h
    simp [Ctx.peek, h]
  simp only [parseSingle]
  -- the escapes
  have hesc : ∀ x, c.input = 92 :: x :: rest → c.peek = some 92 ∧ c.consume.input = x :: rest ∧
      ∀ r, ({ c.consume with input := r } : Ctx) = { c with input := r } := by
    intro x h
    exact ⟨hpeek _ _ h, by simp [Ctx.consume, h], fun r => rfl⟩
  cases a with
  | char x =>
    simp only [Atom.text, List.singleton_append] at hin
    have hx := hok.1
    have hx2 := hok.2
    simp only [special] at hx
    rw [hpeek _ _ hin]
    simp only
    rw [if_neg (by omega), if_neg (by omega), if_neg (by omega), if_neg (by omega), if_neg (by omega), if_neg (by omega),
      if_neg (by omega)]
    unfold parseChar
    rw [consume_eq hin]
    by_cases hlt : x < 65536
    · simp only [Atom.size, if_pos hlt] at hs
      rw [if_pos hlt]
      obtain ⟨c', h1, h2⟩ := emit_simple hc (rest := rest) (code := 0) (args := [x]) (by simpa using hs) (by simp; omega)
      exact ⟨c', [0, x], h1, .inl ⟨hlt, rfl⟩, by simp [Atom.size, hlt], h2⟩
    · simp only [Atom.size, if_neg hlt] at hs
      rw [if_neg hlt]
      obtain ⟨c', h1, h2⟩ := emit_simple hc (rest := rest) (code := 1) (args := [x / 65536, x % 65536]) (by simpa using hs)
        (by simp; omega)
      have he : Ctx.emit { c with input := rest } 1 [x / 65536, x] =
          Ctx.emit { c with input := rest } 1 [x / 65536, x % 65536] := by
        unfold Ctx.emit
        simp
      rw [he]
      exact ⟨c', [1, x / 65536, x % 65536], h1, .inr ⟨by omega, rfl⟩, by simp [Atom.size, hlt], h2⟩
  | escaped x =>
    obtain ⟨e1, e2, e3⟩ := hesc x hin
    rw [e1]
    have hm := special_escapes hok
    have hx : x < 65536 := by
      simp only [escapes, List.mem_cons, List.not_mem_nil, or_false] at hm
      omega
    obtain ⟨c', h1, h2⟩ := emit_simple hc (rest := rest) (code := 0) (args := [x]) (by simpa [Atom.size] using hs)
      (by simp; omega)
    refine ⟨c', [0, x], ?_, rfl, rfl, h2⟩
    simp only [if_neg (show ¬ 92 = 46 by omega), if_neg (show ¬ 92 = 94 by omega), if_neg (show ¬ 92 = 36 by omega), if_true]
    rw [parseEscape_word e2, if_pos hm, e3]
    exact h1
  | control x =>
    obtain ⟨e1, e2, e3⟩ := hesc x.letter hin
    rw [e1]
    obtain ⟨c', h1, h2⟩ := emit_simple hc (rest := rest) (code := 0) (args := [x.code]) (by simpa [Atom.size] using hs)
      (by cases x <;> simp [Control.code])
    refine ⟨c', [0, x.code], ?_, rfl, rfl, h2⟩
    simp only [if_neg (show ¬ 92 = 46 by omega), if_neg (show ¬ 92 = 94 by omega), if_neg (show ¬ 92 = 36 by omega), if_true]
    rw [parseEscape_word e2]
    simp only [e3]
    rw [← h1]
    cases x <;> rfl
  | any =>
    simp only [Atom.text, List.singleton_append] at hin
    rw [hpeek _ _ hin]
    simp only [if_true]
    rw [consume_eq hin]
    obtain ⟨c', h1, h2⟩ := emit_simple hc (rest := rest) (code := 2) (args := []) (by simpa [Atom.size] using hs) (by simp)
    exact ⟨c', [2], h1, rfl, rfl, h2⟩
  | lineBegin =>
    simp only [Atom.text, List.singleton_append] at hin
    rw [hpeek _ _ hin]
    simp only [if_true, if_neg (show ¬ 94 = 46 by omega)]
    rw [consume_eq hin]
    obtain ⟨c', h1, h2⟩ := emit_simple hc (rest := rest) (code := 5) (args := []) (by simpa [Atom.size] using hs) (by simp)
    exact ⟨c', [5], h1, rfl, rfl, h2⟩
  | lineEnd =>
    simp only [Atom.text, List.singleton_append] at hin
    rw [hpeek _ _ hin]
    simp only [if_true, if_neg (show ¬ 36 = 46 by omega), if_neg (show ¬ 36 = 94 by omega)]
    rw [consume_eq hin]
    obtain ⟨c', h1, h2⟩ := emit_simple hc (rest := rest) (code := 6) (args := []) (by simpa [Atom.size] using hs) (by simp)
    exact ⟨c', [6], h1, rfl, rfl, h2⟩
  | boundary b =>
    obtain ⟨e1, e2, e3⟩ := hesc b.letter hin
    rw [e1]
    obtain ⟨c', h1, h2⟩ := emit_simple hc (rest := rest) (code := 7) (args := [boundaryKind b])
      (by simpa [Atom.size] using hs) (by cases b <;> simp [boundaryKind])
    refine ⟨c', [7, boundaryKind b], ?_, rfl, rfl, h2⟩
    simp only [if_neg (show ¬ 92 = 46 by omega), if_neg (show ¬ 92 = 94 by omega), if_neg (show ¬ 92 = 36 by omega), if_true]
    rw [parseEscape_word e2]
    simp only [e3]
    rw [← h1]
    cases b <;> rfl
  | digit neg =>
    obtain ⟨e1, e2, e3⟩ := hesc _ hin
    rw [e1]
    obtain ⟨c', w, h1, h2⟩ := digitClass_ok hc (rest := rest) (by simpa [Atom.size] using hs) neg
    refine ⟨c', w, ?_, h2⟩
    simp only [if_neg (show ¬ 92 = 46 by omega), if_neg (show ¬ 92 = 94 by omega), if_neg (show ¬ 92 = 36 by omega), if_true]
    rw [parseEscape_word e2]
    simp only [e3]
    rw [← h1]
    cases neg <;> rfl
  | word neg =>
    obtain ⟨e1, e2, e3⟩ := hesc _ hin
    rw [e1]
    obtain ⟨c', w, h1, h2⟩ := wordClass_ok hc (rest := rest) (by simpa [Atom.size] using hs) neg
    refine ⟨c', w, ?_, h2⟩
    simp only [if_neg (show ¬ 92 = 46 by omega), if_neg (show ¬ 92 = 94 by omega), if_neg (show ¬ 92 = 36 by omega), if_true]
    rw [parseEscape_word e2]
    simp only [e3]
    rw [← h1]
    cases neg <;> rfl
  | cls neg items =>
    simp only [Atom.text, List.append_assoc, List.cons_append, List.nil_append] at hin
    rw [hpeek _ _ hin]
    simp only [if_neg (show ¬ 91 = 46 by omega), if_neg (show ¬ 91 = 94 by omega), if_neg (show ¬ 91 = 36 by omega),
      if_neg (show ¬ 91 = 92 by omega), if_true]
    have hc' : Inv { c with input := (if neg then [94] else []) ++ (items.flatMap ClassItem.text ++ 93 :: rest) } :=
      ⟨hc.desc, hc.cnt, hc.grp, hc.tab, hc.dig, hc.wrd⟩
    obtain ⟨c', w, h1, h2, h3, h4⟩ := parseClass_ok hc' (rest := rest) hok ho (by simp) (by simpa [Atom.size] using hs)
    rw [consume_eq hin]
    exact ⟨c', w, h1, h2, h3, h4.input, h4.buf, h4.mult, h4.groups, h4.counts, h4.depth, h4.ext, h4.inv⟩

end Verif.Re
