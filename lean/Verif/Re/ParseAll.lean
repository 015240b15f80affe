import Verif.Re.ParseRun
import Verif.Re.MatchFind

/-!
# The compiler makes the words of an expression, the end

Sequences, groups, alternatives and the whole expression.
-/

namespace Verif.Re

open Spec

theorem AtomCode.ext {T T' : Nat → Option (List Range)} (hT : ∀ id rs, T id = some rs → T' id = some rs) {a : Atom}
    {w : List Nat} (ha : AtomCode T a w) : AtomCode T' a w := by
  cases a <;> simp only [AtomCode] at ha ⊢ <;> first
    | exact ha
    | exact ha.imp fun id h => ⟨h.1, h.2.ext hT⟩

/-- The state of the compiler stays in order when the classes stay. -/
theorem Inv.of {c c' : Ctx} (h : Inv c) (h1 : c'.descs = c.descs) (h2 : c'.data = c.data) (h3 : c'.digit = c.digit)
    (h4 : c'.word = c.word) (h5 : c.buf.length ≤ c'.buf.length) (h6 : c'.counts ≤ c'.buf.length)
    (h7 : c'.groups ≤ c'.buf.length) : Inv c' := by
  have hcls : c'.cls = c.cls := by
    funext id
    simp only [Ctx.cls, h1, h2]
  refine ⟨by rw [h1]; exact Nat.le_trans h.desc h5, h6, h7, by rw [h1, h2]; exact h.tab, fun id hd => ?_, fun id hd => ?_⟩
  · rw [h1, hcls]; exact h.dig id (h3 ▸ hd)
  · rw [h1, hcls]; exact h.wrd id (h4 ▸ hd)

/-- A jump at the end of the words. -/
def JumpAt (B : List Nat) (jump : Option Nat) : Prop := ∀ j, jump = some j → ∃ B1 x, B = B1 ++ [11, x] ∧ j = B1.length

/-- The words with the jump going to the word `e` behind it. -/
def patched (B : List Nat) (jump : Option Nat) (e : Nat) : List Nat :=
  match jump with
  | none => B
  | some j => B.set (j + 1) (2 + e)

theorem patched_length (B : List Nat) (jump : Option Nat) (e : Nat) : (patched B jump e).length = B.length := by
  cases jump <;> simp [patched]

/-- The words of `r` have been added to `B`. -/
structure Made (c c' : Ctx) (r : Regex) (W rest : List Nat) (e : Nat) (B : List Nat) : Prop where
  input : c'.input = rest
  buf : c'.buf = B ++ W
  len : W.length = r.size
  groups : c'.groups = c.groups + r.groups
  depth : c'.depth = c.depth
  code : Code c'.cls r c.groups c.counts c'.counts W e
  ext : ∀ id l, c.cls id = some l → c'.cls id = some l
  inv : Inv c'

/-- `parse_alternative_match_seq` from some place on. -/
def altFrom (n fork : Nat) (jump : Option Nat) (c : Ctx) : Option Ctx :=
  match parseSeq n c with
  | none => none
  | some c1 => altLoop n fork jump c1

def SeqOk (r : Regex) : Prop := ∀ n c rest, Inv c → c.input = r.text ++ rest →
  (rest.head? = none ∨ rest.head? = some 124 ∨ rest.head? = some 41) → c.buf.length + r.size ≤ 32767 →
  4 * r.text.length + 1 ≤ n → ∃ c' W e, parseSeq n c = some c' ∧ Made c c' r W rest e c.buf

def AltOk (r : Regex) : Prop := ∀ n c rest jump, Inv c → c.input = r.text ++ rest →
  (rest.head? = none ∨ (rest.head? = some 41 ∧ 0 < c.depth)) → c.buf.length + r.size ≤ 32767 → JumpAt c.buf jump →
  4 * r.text.length + 2 ≤ n →
  ∃ c' W e, altFrom n c.buf.length jump c = some c' ∧ Made c c' r W rest e (patched c.buf jump e)

theorem Code.single_end {T : Nat → Option (List Range)} {r g k k' W e} (h : Code T r g k k' W e) (hr : r.single) :
    e = W.length := by
  cases h <;> simp_all [Regex.single]

theorem patchEnd_ok {c : Ctx} {B W : List Nat} {jump : Option Nat} (hb : c.buf = B ++ W) (hj : JumpAt B jump)
    (hs : c.buf.length ≤ 32767) : c.patchEnd jump = { c with buf := patched B jump W.length ++ W } := by
  cases jump with
  | none => simp only [patched, Ctx.patchEnd, ← hb]
  | some j =>
    obtain ⟨B1, x, rfl, rfl⟩ := hj j rfl
    simp only [Ctx.patchEnd]
    rw [patch_ok (A := B1) (x := 11) (y := x) (Z := W) _ (by simp [hb]) rfl]
    rw [word16_nat (n := 2 + W.length) (by simp [hb]; omega) (by rw [hb] at hs; simp at hs; omega)]
    simp [patched]

theorem alt_of_seq {r : Regex} (hr : r.single) (h : SeqOk r) : AltOk r := by
  intro n c rest jump hc hin hrest hs hj hn
  obtain ⟨c1, W, e, h1, hm⟩ := h n c rest hc hin (by rcases hrest with h | h; exact .inl h; exact .inr (.inr h.1)) hs
    (by omega)
  have he := hm.code.single_end hr
  subst he
  have hlen : c1.buf.length ≤ 32767 := by rw [hm.buf, List.length_append, hm.len]; exact hs
  let c2 : Ctx := { c1 with buf := patched c.buf jump W.length ++ W }
  have hpatch : c1.patchEnd jump = c2 := patchEnd_ok hm.buf hj hlen
  refine ⟨c2, W, W.length, ?_, hm.input, rfl, hm.len, hm.groups, hm.depth, hm.code, hm.ext, ?_⟩
  · unfold altFrom
    rw [h1]
    obtain ⟨m, rfl⟩ : ∃ m, n = m + 1 := ⟨n - 1, by omega⟩
    have hp : c1.peek = rest.head? := by simp [Ctx.peek, hm.input]
    have hp2 : c2.peek = rest.head? := hp
    simp only [altLoop]
    rw [if_neg (by rw [hp]; rcases hrest with h | h <;> simp [h])]
    unfold altEnd
    simp only
    rw [hpatch, hp2]
    rcases hrest with h | ⟨h, hd⟩
    · simp [h]
    · have hd2 : 0 < c2.depth := by show 0 < c1.depth; rw [hm.depth]; exact hd
      simp [h, hd2]
  · have hbl : c2.buf.length = c1.buf.length := by
      simp [c2, patched_length, hm.buf]
    exact Inv.of hm.inv rfl rfl rfl rfl (by rw [hbl]; exact Nat.le_refl _) (by rw [hbl]; exact hm.inv.cnt)
      (by rw [hbl]; exact hm.inv.grp)

theorem altMark_ok {c : Ctx} {B wl rest : List Nat} {jump : Option Nat} (hb : c.buf = B ++ wl) (hj : JumpAt B jump)
    (hin : c.input = 124 :: rest) (hs : c.buf.length + 4 ≤ 32767) : altMark c B.length jump =
      some ({ c with input := rest, buf := patched B jump (2 + wl.length) ++ [10, wl.length + 4] ++ wl ++ [11, 0],
                     canMult := false }, B.length + 2 + wl.length) := by
  have hlen : c.buf.length = B.length + wl.length := by simp [hb]
  unfold altMark
  simp only
  rw [consume_eq hin]
  rw [emit_ok (by simp only [List.length_singleton]; omega)]
  simp only [List.map_cons, List.map_nil, Nat.zero_mod]
  rw [rotate_ok (A := B) (M := wl) (Z := [10, 0]) (by simp [hb]) rfl (by rw [hb])]
  rw [patchEnd_ok (B := B) (W := [10, 0] ++ wl) (by simp) hj (by simp; omega)]
  have h2 : ([10, 0] ++ wl).length = 2 + wl.length := by rw [List.length_append]; rfl
  rw [h2]
  rw [emit_ok (by simp [patched_length]; omega)]
  simp only [List.map_cons, List.map_nil, Nat.zero_mod]
  rw [patch_ok (A := patched B jump (2 + wl.length)) (x := 10) (y := 0) (Z := wl ++ [11, 0]) _ (by simp)
    (by rw [patched_length])]
  rw [word16_nat (n := wl.length + 4) (by simp [patched_length]) (by omega)]
  simp [patched_length]
  omega

theorem alt_alt {l r : Regex} (hl : SeqOk l) (hr : AltOk r) : AltOk (.alt l r) := by
  intro n c rest jump hc hin hrest hs hj hn
  simp only [Regex.text, List.append_assoc, List.cons_append] at hin
  simp only [Regex.text, List.length_append, List.length_cons] at hn
  simp only [Regex.size] at hs
  obtain ⟨c1, wl, el, h1, hm⟩ := hl n c (124 :: (r.text ++ rest)) hc hin (by simp) (by omega) (by omega)
  have hwl := hm.len
  have hlen1 : c1.buf.length = c.buf.length + wl.length := by simp [hm.buf]
  obtain ⟨m, rfl⟩ : ∃ m, n = m + 1 := ⟨n - 1, by omega⟩
  have hmark := altMark_ok hm.buf hj hm.input (by omega)
  let c2 : Ctx := { c1 with
    input := r.text ++ rest
    buf := patched c.buf jump (2 + wl.length) ++ [10, wl.length + 4] ++ wl ++ [11, 0]
    canMult := false }
  have hlen2 : c2.buf.length = c.buf.length + wl.length + 4 := by
    simp only [c2, List.length_append, List.length_cons, List.length_nil, patched_length]; omega
  have hc2 : Inv c2 := Inv.of hm.inv rfl rfl rfl rfl (by omega) (by have := hm.inv.cnt; show c1.counts ≤ _; omega)
    (by have := hm.inv.grp; show c1.groups ≤ _; omega)
  obtain ⟨c3, wr, er, h3, hm3⟩ := hr m c2 rest (some (c.buf.length + 2 + wl.length)) hc2 rfl
    (by rcases hrest with h | h; exact .inl h; exact .inr ⟨h.1, by show 0 < c1.depth; rw [hm.depth]; exact h.2⟩)
    (by omega) (by
      intro j h
      cases h
      refine ⟨_, 0, rfl, ?_⟩
      simp [patched_length]
      omega) (by omega)
  have hp : patched c2.buf (some (c.buf.length + 2 + wl.length)) er =
      patched c.buf jump (2 + wl.length) ++ [10, wl.length + 4] ++ wl ++ [11, 2 + er] := by
    have hlenP := patched_length c.buf jump (2 + wl.length)
    simp only [c2]
    generalize patched c.buf jump (2 + wl.length) = P at hlenP
    have h0 : P ++ [10, wl.length + 4] ++ wl ++ [11, 0] = (P ++ [10, wl.length + 4] ++ wl ++ [11]) ++ [0] := by simp
    have hidx : c.buf.length + 2 + wl.length + 1 = (P ++ [10, wl.length + 4] ++ wl ++ [11]).length := by
      simp only [List.length_append, List.length_cons, List.length_nil]; omega
    simp only [patched]
    rw [h0, hidx, List.set_append_right _ _ (Nat.le_refl _)]
    simp
  refine ⟨c3, [10, wl.length + 4] ++ wl ++ [11, 2 + er] ++ wr, 2 + wl.length, ?_, hm3.input, ?_, ?_, ?_, ?_, ?_, ?_, hm3.inv⟩
  · unfold altFrom
    rw [h1]
    simp only [altLoop]
    rw [if_pos (by simp [Ctx.peek, hm.input]), hmark]
    exact h3
  · rw [hm3.buf, hp]
    simp only [List.append_assoc]
  · simp only [List.length_append, List.length_cons, List.length_nil, hm3.len, hwl, Regex.size]; omega
  · rw [hm3.groups]
    show c1.groups + r.groups = _
    rw [hm.groups]
    simp only [Regex.groups]; omega
  · rw [hm3.depth]; exact hm.depth
  · refine Code.alt (hm.code.mono hm3.ext) ?_
    have := hm3.code
    have hg : c2.groups = c.groups + l.groups := hm.groups
    rw [hg] at this
    exact this
  · intro id x h
    exact hm3.ext _ _ (hm.ext _ _ h)

/-! ### Sequences -/

theorem atom_head {a : Atom} (h : a.ok) : ∃ x r, a.text = x :: r ∧ x ≠ 42 ∧ x ≠ 43 ∧ x ≠ 63 ∧ x ≠ 123 ∧ x ≠ 124 ∧
    x ≠ 41 := by
  cases a with
  | char c =>
    have := h.1
    simp only [special] at this
    exact ⟨c, [], rfl, by omega, by omega, by omega, by omega, by omega, by omega⟩
  | cls neg items =>
    exact ⟨91, (if neg then [94] else []) ++ items.flatMap ClassItem.text ++ [93], by simp [Atom.text], by omega, by omega,
      by omega, by omega, by omega, by omega⟩
  | _ => exact ⟨_, _, rfl, by omega, by omega, by omega, by omega, by omega, by omega⟩

theorem calm_text : ∀ (r : Regex), r.ok → ∀ rest, Calm rest → Calm (r.text ++ rest)
  | .empty, _, rest, h => by simpa [Regex.text] using h
  | .atom a q s, hok, rest, _ => by
    obtain ⟨x, r, hx, h⟩ := atom_head hok.1
    simp only [Regex.text, hx, List.cons_append]
    intro y hy
    simp only [List.head?_cons, Option.some.injEq] at hy
    subst hy
    exact ⟨h.1, h.2.1, h.2.2.1, h.2.2.2.1⟩
  | .group cap b q s, _, rest, _ => by
    simp only [Regex.text, List.append_assoc, List.cons_append]
    intro y hy
    simp only [List.head?_cons, Option.some.injEq] at hy
    subst hy
    omega
  | .alt l r, hok, rest, _ => by
    simp only [Regex.text, List.append_assoc]
    refine calm_text l hok.2.1 _ ?_
    intro y hy
    simp only [List.cons_append, List.head?_cons, Option.some.injEq] at hy
    subst hy
    omega

theorem calm_rest {rest : List Nat} (h : rest.head? = none ∨ rest.head? = some 124 ∨ rest.head? = some 41) : Calm rest := by
  intro x hx
  rw [hx] at h
  simp only [Option.some.injEq, reduceCtorEq, false_or] at h
  omega

theorem seq_empty : SeqOk .empty := by
  intro n c rest hc hin hrest hs hn
  simp only [Regex.text, List.nil_append] at hin
  obtain ⟨m, rfl⟩ : ∃ m, n = m + 1 := ⟨n - 1, by simp [Regex.text] at hn; omega⟩
  refine ⟨c, [], 0, ?_, hin, by simp, rfl, rfl, rfl, .empty _ _, fun _ _ h => h, hc⟩
  simp only [parseSeq, Ctx.peek, hin]
  rw [if_pos hrest]

theorem quantCode_length (q : Option Quant) (k : Nat) (w : List Nat) :
    (quantCode q k w).length = w.length + if q.isSome then 9 else 0 := by
  cases q <;> simp [quantCode, repCode]

/-- The rest of a sequence after one match has been parsed. -/
theorem seq_rest {s : Regex} (hs : SeqOk s) (hok : s.ok) {c1 : Ctx} {B w rest : List Nat} {q : Option Quant} {n : Nat}
    (hc : Inv c1) (hq : qok q) (hm : c1.canMult = true) (hb : c1.buf = B ++ w)
    (hin : c1.input = qtext q ++ (s.text ++ rest))
    (hrest : rest.head? = none ∨ rest.head? = some 124 ∨ rest.head? = some 41)
    (hsz : c1.buf.length + (if q.isSome then 9 else 0) + s.size ≤ 32767) (hn : 4 * s.text.length + 1 ≤ n) :
    ∃ c3 ws e, (match parseMultiplicity c1 B.length with
        | none => none
        | some c2 => parseSeq n c2) = some c3 ∧
      c3.input = rest ∧ c3.buf = B ++ (quantCode q c1.counts w ++ ws) ∧ ws.length = s.size ∧
      c3.groups = c1.groups + s.groups ∧ c3.depth = c1.depth ∧
      Code c3.cls s c1.groups (c1.counts + quantCounts q) c3.counts ws e ∧
      (∀ id l, c1.cls id = some l → c3.cls id = some l) ∧ Inv c3 := by
  have hcalm := calm_text s hok rest (calm_rest hrest)
  obtain ⟨m, h1⟩ := parseMultiplicity_ok hq hm hb hin hcalm (by omega) hc.cnt
  rw [h1]
  simp only
  generalize hc2 : ({ c1 with
    input := s.text ++ rest
    counts := c1.counts + quantCounts q
    buf := B ++ quantCode q c1.counts w
    canMult := m } : Ctx) = c2
  have hbuf2 : c2.buf = B ++ quantCode q c1.counts w := by rw [← hc2]
  have hlen : c2.buf.length = c1.buf.length + if q.isSome then 9 else 0 := by
    rw [hbuf2, hb, List.length_append, List.length_append, quantCode_length]; omega
  have hinv2 : Inv c2 := by
    have h2 := hc.cnt
    have h3 := hc.grp
    refine Inv.of hc (by rw [← hc2]) (by rw [← hc2]) (by rw [← hc2]) (by rw [← hc2]) (by omega) ?_ ?_
    · rw [hlen, ← hc2]
      cases q <;> simp [quantCounts] <;> omega
    · rw [hlen, ← hc2]
      simp only
      omega
  obtain ⟨c3, ws, e, h3, hm3⟩ := hs n c2 rest hinv2 (by rw [← hc2]) hrest (by omega) hn
  refine ⟨c3, ws, e, h3, hm3.input, by rw [hm3.buf, hbuf2, List.append_assoc], hm3.len, by rw [hm3.groups, ← hc2],
    by rw [hm3.depth, ← hc2], ?_, ?_, hm3.inv⟩
  · have := hm3.code
    rw [← hc2] at this
    exact this
  · intro id l h
    refine hm3.ext id l ?_
    rw [← hc2]
    exact h

theorem seq_atom {a : Atom} {q : Option Quant} {s : Regex} (hok : (Regex.atom a q s).ok) (ho : Atom.orderly a)
    (hs : SeqOk s) : SeqOk (.atom a q s) := by
  intro n c rest hc hin hrest hsz hn
  obtain ⟨hoka, hq, _, hoks⟩ := hok
  obtain ⟨x, r, hx, _, _, _, _, h124, h41⟩ := atom_head hoka
  simp only [Regex.text, List.append_assoc] at hin
  simp only [Regex.text, List.length_append, hx, List.length_cons] at hn
  simp only [Regex.size] at hsz
  obtain ⟨m, rfl⟩ : ∃ m, n = m + 2 := ⟨n - 2, by omega⟩
  obtain ⟨c1, w, h1, hcode, hwl, hg⟩ := parseSingle_atom hc hoka ho hin (by omega) m
  have hlen : c1.buf.length = c.buf.length + a.size := by rw [hg.buf, List.length_append, hwl]
  obtain ⟨c3, ws, e, h3, e1, e2, e3, e4, e5, e6, e7, e8⟩ := seq_rest hs hoks (n := m + 1) hg.inv hq hg.mult hg.buf hg.input
    hrest (by omega) (by omega)
  refine ⟨c3, quantCode q c.counts w ++ ws, (quantCode q c.counts w).length + ws.length, ?_, e1, ?_, ?_, ?_, ?_, ?_, ?_, e8⟩
  · have hp : c.peek = some x := by
      simp [Ctx.peek, hin, hx]
    simp only [parseSeq]
    rw [if_neg (by rw [hp]; simp [h124, h41]), h1]
    exact h3
  · rw [e2, hg.counts]
  · rw [List.length_append, quantCode_length, e3, hwl]; rfl
  · rw [e4, hg.groups]; rfl
  · rw [e5, hg.depth]
  · refine Code.atom (e := e) (hcode.ext e7) ?_
    rw [hg.groups, hg.counts] at e6
    exact e6
  · exact fun id l h => e7 id l (hg.ext id l h)

theorem seq_group {cap : Bool} {b : Regex} {q : Option Quant} {s : Regex} (hok : (Regex.group cap b q s).ok)
    (hb : AltOk b) (hs : SeqOk s) : SeqOk (.group cap b q s) := by
  intro n c rest hc hin hrest hsz hn
  obtain ⟨hokb, hq, _, hoks⟩ := hok
  simp only [Regex.text, List.append_assoc, List.cons_append, List.nil_append] at hin
  simp only [Regex.text, List.length_append, List.length_cons, List.length_nil] at hn
  simp only [Regex.size] at hsz
  obtain ⟨m, rfl⟩ : ∃ m, n = m + 4 := ⟨n - 4, by omega⟩
  have hcnt := hc.cnt
  have hgrp := hc.grp
  -- the beginning of the group
  let g := if cap then 1 else 0
  let id := if cap then c.groups else 0xFFFF
  let rest1 := b.text ++ 41 :: (qtext q ++ (s.text ++ rest))
  let c1 : Ctx := { c with
    input := rest1, groups := c.groups + g, buf := c.buf ++ [8, id], depth := c.depth + 1, canMult := false }
  have hid : id % 65536 = id := by
    simp only [id]
    split <;> omega
  have hbegin : ∃ k, groupBegin c.consume = some (id, { c1 with canMult := k }) := by
    refine ⟨true, ?_⟩
    have hcalm : Calm rest1 := calm_text b hokb _ (by intro y hy; simp at hy; omega)
    unfold groupBegin
    rw [consume_eq hin]
    cases cap with
    | true =>
      have h63 : ¬ rest1.head? = some 63 := fun h => (hcalm 63 h).2.2.1 rfl
      simp only [Ctx.peek, if_true, List.nil_append]
      rw [if_neg (by exact h63), emit_ok (by simp; omega)]
      simp only [id, if_true] at hid
      simp [hid, c1, g, id, rest1]
    | false =>
      simp only [Ctx.peek, Bool.false_eq_true, if_false, List.cons_append, List.nil_append, List.head?_cons, if_true,
        Ctx.consume, List.tail_cons]
      rw [emit_ok (by simp; omega)]
      simp [c1, g, id, rest1]
  obtain ⟨k, hbegin⟩ := hbegin
  have hlen1 : c1.buf.length = c.buf.length + 2 := by simp [c1]
  have hinv1 : Inv c1 := by
    refine Inv.of hc rfl rfl rfl rfl (by omega) (by show c.counts ≤ _; omega) ?_
    show c.groups + g ≤ _
    simp only [g]
    split <;> omega
  -- its body
  obtain ⟨c2, wb, eb, h2, hm2⟩ := hb (m + 1) c1 (41 :: (qtext q ++ (s.text ++ rest))) none hinv1 rfl
    (by simp [c1]) (by omega) (by intro j h; cases h) (by split at hn <;> simp at hn <;> omega)
  simp only [patched] at hm2
  have hlen2 : c2.buf.length = c.buf.length + 2 + b.size := by rw [hm2.buf, List.length_append, hm2.len]; omega
  -- its end
  let c3 : Ctx := { c2 with
    input := qtext q ++ (s.text ++ rest), depth := c.depth, buf := c2.buf ++ [9, id], canMult := true }
  have hend : groupEnd id c2 = some c3 := by
    unfold groupEnd Ctx.expect
    simp only [Ctx.peek, hm2.input, List.head?_cons, if_true]
    simp only [Ctx.consume, List.tail_cons]
    rw [emit_ok (by simp; omega)]
    have hd : c2.depth - 1 = c.depth := by rw [hm2.depth]; rfl
    simp only [hd, List.map_cons, List.map_nil, hid, c3]
  have hlen3 : c3.buf.length = c.buf.length + b.size + 4 := by simp only [c3, List.length_append, List.length_cons, List.length_nil]; omega
  have hinv3 : Inv c3 := by
    have h1 := hm2.inv.cnt
    have h2 := hm2.inv.grp
    exact Inv.of hm2.inv rfl rfl rfl rfl (by omega) (by show c2.counts ≤ _; omega) (by show c2.groups ≤ _; omega)
  have hbuf3 : c3.buf = c.buf ++ groupCode id wb := by
    simp only [c3, hm2.buf, c1, groupCode, List.append_assoc]
  have hsingle : parseSingle (m + 3) c = some c3 := by
    have hp : c.peek = some 40 := by simp [Ctx.peek, hin]
    simp only [parseSingle, hp, if_neg (show ¬ 40 = 46 by omega), if_neg (show ¬ 40 = 94 by omega),
      if_neg (show ¬ 40 = 36 by omega), if_neg (show ¬ 40 = 92 by omega), if_neg (show ¬ 40 = 91 by omega), if_true, hbegin]
    simp only [parseAlt]
    have := h2
    unfold altFrom at this
    have hcm : ({ c1 with canMult := false } : Ctx) = c1 := rfl
    simp only [hcm]
    cases hps : parseSeq (m + 1) c1 with
    | none => rw [hps] at this; cases this
    | some y =>
      rw [hps] at this
      simp only at this
      simp only [this]
      exact hend
  obtain ⟨c4, ws, e, h4, e1, e2, e3, e4, e5, e6, e7, e8⟩ := seq_rest hs hoks (n := m + 3) hinv3 hq rfl hbuf3 rfl
    hrest (by omega) (by omega)
  have hg3 : c3.groups = c.groups + g + b.groups := hm2.groups
  have hcode := hm2.code.mono e7
  refine ⟨c4, quantCode q c3.counts (groupCode id wb) ++ ws,
    (quantCode q c3.counts (groupCode id wb)).length + ws.length, ?_, e1, e2, ?_, ?_, ?_, ?_, ?_, e8⟩
  · have hp : c.peek = some 40 := by simp [Ctx.peek, hin]
    simp only [parseSeq]
    rw [if_neg (by rw [hp]; simp), hsingle]
    exact h4
  · rw [List.length_append, quantCode_length, e3]
    simp only [groupCode, List.length_append, List.length_cons, List.length_nil, hm2.len, Regex.size]
    omega
  · rw [e4, hg3]
    simp only [Regex.groups, g]
    omega
  · rw [e5]
  · rw [hg3] at e6
    cases cap with
    | true => exact Code.capture hcode e6
    | false => exact Code.group hcode e6
  · intro i l h
    exact e7 i l (hm2.ext i l h)

theorem parse_ok : ∀ (r : Regex), r.ok → r.orderly → (r.single → SeqOk r) ∧ AltOk r
  | .empty, _, _ => ⟨fun _ => seq_empty, alt_of_seq trivial seq_empty⟩
  | .atom a q s, hok, ho => by
    have hs : SeqOk s := by
      refine (parse_ok s hok.2.2.2 ?_).1 hok.2.2.1
      cases a <;> first | exact ho | exact ho.2
    have ha : Atom.orderly a := by
      cases a <;> first | exact trivial | exact ho.1
    exact ⟨fun _ => seq_atom hok ha hs, alt_of_seq trivial (seq_atom hok ha hs)⟩
  | .group cap b q s, hok, ho => by
    have hs : SeqOk s := (parse_ok s hok.2.2.2 ho.2).1 hok.2.2.1
    have hb : AltOk b := (parse_ok b hok.1 ho.1).2
    exact ⟨fun _ => seq_group hok hb hs, alt_of_seq trivial (seq_group hok hb hs)⟩
  | .alt l r, hok, ho =>
    ⟨fun h => h.elim, alt_alt ((parse_ok l hok.2.1 ho.1).1 hok.1) (parse_ok r hok.2.2 ho.2).2⟩

/-- The text of an expression is compiled to its words. -/
theorem compile_ok {r : Regex} (hok : r.ok) (ho : r.orderly) (hs : r.size ≤ 32767) :
    ∃ p, compile r.text = some p ∧ Compiled p r := by
  have hinv : Inv { input := r.text } :=
    ⟨Nat.le_refl _, Nat.le_refl _, Nat.le_refl _, (by intro d h; cases h), (by intro id h; cases h), (by intro id h; cases h)⟩
  obtain ⟨c', W, e, h1, hm⟩ := (parse_ok r hok ho).2 (4 * r.text.length + 3) { input := r.text } [] none hinv (by simp) (by simp)
    (by simpa using hs) (by intro j h; cases h) (by omega)
  simp only [patched] at hm
  have hbuf : c'.buf = W := by simpa using hm.buf
  have hlen : c'.buf.length ≤ 32767 := by rw [hbuf, hm.len]; exact hs
  have hc := hm.inv.cnt
  have hg := hm.inv.grp
  have e1 : c'.groups % 65536 = c'.groups := by omega
  have e2 : c'.counts % 65536 = c'.counts := by omega
  refine ⟨{ code := c'.buf, descs := c'.descs, data := c'.data, groups := c'.groups, counts := c'.counts }, ?_, ?_⟩
  · have hp : parseAlt (4 * r.text.length + 4) { input := r.text } = some c' := by
      simp only [parseAlt]
      exact h1
    unfold compile
    rw [hp]
    simp only [Option.map_some, e1, e2]
  · refine ⟨⟨e, ?_⟩, ?_, hlen, ?_⟩
    · have := hm.code
      rw [hbuf]
      exact this
    · rw [hm.groups]; simp
    · show c'.groups ≤ _
      omega

end Verif.Re
