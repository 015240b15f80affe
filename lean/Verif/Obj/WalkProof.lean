import Verif.Obj.Ext
import Verif.Props.C22

/-! Iteration over the properties of an object while the objects are being changed. -/
namespace Verif.Obj

open Verif.Props

set_option linter.unusedSectionVars false

variable {K V : Type} [DecidableEq K]

theorem objStep_ext {mem : Nat → Nat → Bool} {dyn : V → Bool} {H : K → Nat} {w w' : World K V} {op : ObjOp K V} {out : Out V}
    (h : objStep mem dyn H w op = .ok (w', out)) : Ext w w' := by
  cases op with
  | new p q =>
    simp only [objStep] at h
    injection h with h; injection h with h; subst h
    refine ⟨fun _ tb h => ⟨tb, h, .refl tb⟩, fun i ob hi => ⟨ob, ?_, rfl, rfl⟩, fun i t ob' h3 h4 h5 => ⟨ob', ?_, h4⟩⟩
    · simp only [List.getElem?_append_left (List.getElem?_eq_some_iff.mp hi).1]; exact hi
    · simp only at h3
      by_cases e : i < w.objs.length
      · rw [List.getElem?_append_left e] at h3; exact h3
      · have hle : i < w.objs.length + 1 := by
          have := (List.getElem?_eq_some_iff.mp h3).1; simpa using this
        have : i = w.objs.length := by omega
        subst this
        simp only [List.getElem?_concat_length, Option.some.injEq] at h3
        subst h3; cases h4
  | set o k v => exact setProperty_ext h
  | del o k => exact deleteProperty_ext h
  | get o k =>
    simp only [objStep] at h
    cases hg : getProperty H w o k true with
    | error e => rw [hg] at h; cases h
    | ok r => rw [hg] at h; cases h; exact .refl _
  | getDeep o k =>
    simp only [objStep] at h
    cases hg : getProperty H w o k false with
    | error e => rw [hg] at h; cases h
    | ok r => rw [hg] at h; cases h; exact .refl _

namespace Spec

/-- `p` is `o` or in its chain of prototypes. -/
inductive Chain (sp : List (SObj K V)) (o : Nat) : Nat → Prop
  | refl : Chain sp o o
  | up {p q so} : Chain sp o p → sp[p]? = some so → so.proto = some q → Chain sp o q

end Spec

open Spec (Chain)

theorem Chain.trans {sp : List (SObj K V)} {a b c : Nat} (h1 : Chain sp a b) (h2 : Chain sp b c) : Chain sp a c := by
  induction h2 with
  | refl => exact h1
  | up _ k1 k2 ih => exact .up ih k1 k2

theorem Sim.get {H : K → Nat} {w : World K V} {sp : List (SObj K V)} (s : Sim H w sp) {i : Nat} (h : i < sp.length) :
    ∃ ob so, w.objs[i]? = some ob ∧ sp[i]? = some so ∧ so.props = ob.props ∧ so.proto = ob.proto ∧ (∀ p, ob.proto = some p → p < i) ∧
      (ob.table = none → so.map = fun _ => none) ∧
      (∀ t, ob.table = some t → ob.props = true ∧ ∃ tb, w.tables[t]? = some tb ∧ Good H tb ∧ Rep tb so.map) := by
  have hlen : i < w.objs.length := by rw [s.len]; exact h
  have ho : w.objs[i]? = some w.objs[i] := List.getElem?_eq_getElem hlen
  obtain ⟨so, h1, h2, h3, h4, h5, h6⟩ := s.obj i _ ho
  exact ⟨_, so, ho, h1, h2, h3, h4, h5, h6⟩

theorem Chain.keep {H : K → Nat} {w w' : World K V} {sp sp' : List (SObj K V)} (s : Sim H w sp) (s' : Sim H w' sp') (e : Ext w w') {a b : Nat}
    (h : Chain sp a b) : Chain sp' a b := by
  induction h with
  | refl => exact .refl
  | @up p q so _ k1 k2 ih =>
    obtain ⟨ob, so1, h1, h2, h3, h4, _⟩ := s.get (List.getElem?_eq_some_iff.mp k1).1
    rw [k1] at h2; cases h2
    obtain ⟨ob', h5, h6, _⟩ := e.objs p ob h1
    obtain ⟨so', h7, h8, h9, _⟩ := s'.obj p ob' h5
    exact .up ih h7 (by rw [h9, h6, ← h4, k2])

/-- What has been asked for and returned so far. -/
structure Track (K : Type) where
  o : Nat
  deep : Bool
  must : K → Prop
  got : List K

/-- What is read at a slot. -/
def Turn.of (k : K) : Option V → Turn K V
  | some v => .item k v
  | none => .more

structure Inv (w : World K V) (sp : List (SObj K V)) (s : Walk K) (t : Track K) : Prop where
  deep : s.deep = t.deep
  chain : Chain sp t.o s.prop
  lt : s.prop < sp.length
  shallow : t.deep = false → s.prop = t.o
  table : ∀ u, s.table = some u → ∃ tb, w.tables[u]? = some tb ∧
    (s.index < tb.cap → ∀ i ob, w.objs[i]? = some ob → ob.table = some u → i = s.prop)
  gotDeep : t.deep = true → ∀ k ∈ t.got, k ∈ s.keys
  gotShallow : t.deep = false → ∀ k ∈ t.got, ∃ u tb j, s.table = some u ∧ w.tables[u]? = some tb ∧ j < s.index ∧ j < tb.cap ∧
    (tb.items j).key = some k
  must : ∀ k, t.must k → (∃ so, sp[t.o]? = some so ∧ so.map k ≠ none) ∧ (k ∈ t.got ∨ (k ∉ s.keys ∧ s.prop = t.o ∧
    ∃ u tb j, s.table = some u ∧ w.tables[u]? = some tb ∧ s.index ≤ j ∧ j < tb.cap ∧ (tb.items j).key = some k))

/-- The keys of a table are distinct, also after its properties have been moved. -/
theorem Sim.uniq {H : K → Nat} {w : World K V} {sp : List (SObj K V)} (s : Sim H w sp) {u : Nat} {tb : Table K V} (h : w.tables[u]? = some tb) :
    ∀ i < tb.cap, ∀ j < tb.cap, ∀ k, (tb.items i).key = some k → (tb.items j).key = some k → i = j := by
  rcases s.old u tb h with ⟨i, ob, h1, h2⟩ | h
  · obtain ⟨so, _, _, _, _, _, h6⟩ := s.obj i ob h1
    obtain ⟨_, tb', h7, g, _⟩ := h6 u h2
    rw [h] at h7; cases h7
    exact g.uniq
  · exact h.uniq

/-- A slot, or the object if the table is an old one, tells what the object has now. -/
theorem readItem_spec {H : K → Nat} {w : World K V} {sp : List (SObj K V)} (sim : Sim H w sp) (s : Walk K) {u : Nat} {tb : Table K V}
    (hu : w.tables[u]? = some tb) (hc : ∀ i ob, w.objs[i]? = some ob → ob.table = some u → i = s.prop) {so : SObj K V}
    (hs : sp[s.prop]? = some so) {j : Nat} (hj : j < tb.cap) {k : K} (hk : (tb.items j).key = some k) :
    readItem H w s k (tb.items j).val = .ok (s, Turn.of k (so.map k)) := by
  have closed : ∀ x : Val V, x = .closed ∨ x = .reserved → readItem H w s k x = .ok (s, Turn.of k (so.map k)) := by
    rintro x (rfl | rfl) <;>
    · simp only [readItem, getProperty_shallow sim hs k, bind, Except.bind]
      cases so.map k <;> rfl
  have cur : (tb.items j).val ≠ .closed → Rep tb so.map := by
    intro hne
    rcases sim.old u tb hu with ⟨i, ob, h1, h2⟩ | h
    · have := hc i ob h1 h2
      subst this
      obtain ⟨so', k1, _, _, _, _, h6⟩ := sim.obj _ ob h1
      rw [hs] at k1; cases k1
      obtain ⟨_, tb', h7, _, r⟩ := h6 u h2
      rw [hu] at h7; cases h7
      exact r
    · exact absurd (h.closed j hj) hne
  cases hv : (tb.items j).val with
  | tomb =>
    have r := cur (by rw [hv]; simp)
    have : so.map k = none := by
      cases hm : so.map k with
      | none => rfl
      | some v =>
        obtain ⟨i, hi, h1, h2⟩ := (r k v).mp hm
        have := sim.uniq hu i hi j hj k h1 hk
        subst this
        rw [hv] at h2; cases h2
    rw [this]; rfl
  | val v =>
    have r := cur (by rw [hv]; simp)
    rw [(r k v).mpr ⟨j, hj, hk, hv⟩]; rfl
  | closed => exact closed _ (.inl rfl)
  | reserved => exact closed _ (.inr rfl)

/-- `r` is the outcome of a lookup which starts above `o`. -/
def Above (sp : List (SObj K V)) (k : K) (o : Nat) (r : Option V) : Prop :=
  ∃ so, sp[o]? = some so ∧ ((so.proto = none ∧ r = none) ∨ ∃ q, so.proto = some q ∧ Spec.Deep sp k q r)

theorem climb_spec {H : K → Nat} {w : World K V} {sp : List (SObj K V)} (sim : Sim H w sp) :
    ∀ (fuel o : Nat), o < fuel → o < sp.length → ∃ p ot, climb w fuel o = .ok (p, ot) ∧ Chain sp o p ∧ p < sp.length ∧
      (∀ u, ot = some u → p < o ∧ (∃ pb, w.objs[p]? = some pb ∧ pb.table = some u) ∧ ∀ k r, Spec.Deep sp k p r → Above sp k o r) ∧
      (ot = none → ∀ k, Above sp k o none) := by
  intro fuel
  induction fuel with
  | zero => intro o h; omega
  | succ fuel ih =>
    intro o hf hl
    obtain ⟨ob, so, ho, hs, h2, h3, h4, h5, h6⟩ := sim.get hl
    rw [climb]
    simp only [World.obj_ok ho, bind, Except.bind]
    cases hp : ob.proto with
    | none =>
      exact ⟨o, none, rfl, .refl, hl, by simp, fun _ k => ⟨so, hs, .inl ⟨by rw [h3, hp], rfl⟩⟩⟩
    | some q =>
      have hq := h4 q hp
      have hchain : Chain sp o q := .up .refl hs (by rw [h3, hp])
      obtain ⟨pb, sq, ho', hs', k2, k3, k4, k5, k6⟩ := sim.get (i := q) (by omega)
      simp only [World.obj_ok ho']
      cases ht : (if pb.props then pb.table else none) with
      | some u =>
        have htab : pb.table = some u := by
          cases hpp : pb.props with
          | true => simpa [hpp] using ht
          | false => simp [hpp] at ht
        refine ⟨q, some u, rfl, hchain, by omega, ?_, by simp⟩
        intro u' hu'
        cases hu'
        exact ⟨hq, ⟨pb, ho', htab⟩, fun k r hd => ⟨so, hs, .inr ⟨q, by rw [h3, hp], hd⟩⟩⟩
      | none =>
        have htab : pb.table = none := by
          cases hpt : pb.table with
          | none => rfl
          | some u =>
            have := (k6 u hpt).1
            simp [this, hpt] at ht
        have hmap := k5 htab
        have push : ∀ k r, Above sp k q r → Above sp k o r := by
          rintro k r ⟨s1, e1, h⟩
          rw [hs'] at e1; cases e1
          refine ⟨so, hs, .inr ⟨q, by rw [h3, hp], ?_⟩⟩
          rcases h with ⟨h, rfl⟩ | ⟨q', h, hd⟩
          · exact .stop hs' (by rw [hmap]) h
          · exact .up hs' (by rw [hmap]) h hd
        obtain ⟨p, ot, e1, e2, e3, e4, e5⟩ := ih q (by omega) (by omega)
        refine ⟨p, ot, e1, Chain.trans hchain e2, e3, ?_, fun h k => push k none (e5 h k)⟩
        intro u hu
        obtain ⟨f1, f2, f3⟩ := e4 u hu
        exact ⟨by omega, f2, fun k r hd => push k r (f3 k r hd)⟩

def Track.add (t : Track K) : Turn K V → Track K
  | .item k _ => { t with got := k :: t.got }
  | _ => t

/-- What a turn may do. -/
def Allowed (sp : List (SObj K V)) (t : Track K) : Turn K V → Prop
  | .more => True
  | .item k v => k ∉ t.got ∧ ∃ p so, Chain sp t.o p ∧ (t.deep = false → p = t.o) ∧ sp[p]? = some so ∧ so.map k = some v
  | .done => ∀ k, t.must k → k ∈ t.got

/-- One turn: what the walk does, by cases. -/
inductive Did (w : World K V) (sp : List (SObj K V)) (s : Walk K) : Walk K → Turn K V → Prop
  /-- the table is over -/
  | over (h : ∀ u tb, s.table = some u → w.tables[u]? = some tb → tb.cap ≤ s.index) (hd : s.deep = false) :
      Did w sp s { s with index := s.index + 1 } .done
  | last (h : ∀ u tb, s.table = some u → w.tables[u]? = some tb → tb.cap ≤ s.index) (hd : s.deep = true) (p : Nat)
      (hp : p < sp.length) (hc : Chain sp s.prop p) (ha : ∀ k, Above sp k s.prop none) :
      Did w sp s { s with index := s.index + 1, prop := p } .done
  | up (h : ∀ u tb, s.table = some u → w.tables[u]? = some tb → tb.cap ≤ s.index) (hd : s.deep = true) (p u : Nat)
      (hp : p < s.prop) (hc : Chain sp s.prop p) (ht : ∃ pb, w.objs[p]? = some pb ∧ pb.table = some u)
      (ha : ∀ k r, Spec.Deep sp k p r → Above sp k s.prop r) :
      Did w sp s { s with index := 0, prop := p, table := some u } .more
  /-- an empty slot -/
  | skip (u : Nat) (tb : Table K V) (hu : s.table = some u) (ht : w.tables[u]? = some tb) (hi : s.index < tb.cap)
      (hk : (tb.items s.index).key = none) : Did w sp s { s with index := s.index + 1 } .more
  /-- a key seen before -/
  | seen (u : Nat) (tb : Table K V) (hu : s.table = some u) (ht : w.tables[u]? = some tb) (hi : s.index < tb.cap) (hd : s.deep = true)
      (k : K) (hk : (tb.items s.index).key = some k) (hm : k ∈ s.keys) : Did w sp s { s with index := s.index + 1 } .more
  | read (u : Nat) (tb : Table K V) (hu : s.table = some u) (ht : w.tables[u]? = some tb) (hi : s.index < tb.cap)
      (k : K) (hk : (tb.items s.index).key = some k) (hm : s.deep = true → k ∉ s.keys) (so : SObj K V) (hs : sp[s.prop]? = some so) :
      Did w sp s { s with index := s.index + 1, keys := if s.deep then k :: s.keys else s.keys } (Turn.of k (so.map k))

theorem walkStep_did {H : K → Nat} {w : World K V} {sp : List (SObj K V)} (sim : Sim H w sp) {s : Walk K} (lt : s.prop < sp.length)
    (table : ∀ u, s.table = some u → ∃ tb, w.tables[u]? = some tb ∧
    (s.index < tb.cap → ∀ i ob, w.objs[i]? = some ob → ob.table = some u → i = s.prop)) :
    ∃ s' r, walkStep H w s = .ok (s', r) ∧ Did w sp s s' r := by
  have up : (∀ u tb, s.table = some u → w.tables[u]? = some tb → tb.cap ≤ s.index) →
      ∃ s' r, walkUp w { s with index := s.index + 1 } = .ok (s', r) ∧ Did w sp s s' r := by
    intro h
    unfold walkUp
    cases hd : s.deep with
    | false =>
      have := Did.over (sp := sp) h hd
      rw [hd] at this
      exact ⟨_, _, rfl, this⟩
    | true =>
      have hlen := sim.len
      obtain ⟨p, ot, e1, e2, e3, e4, e5⟩ := climb_spec sim (w.objs.length + 1) s.prop (by omega) lt
      simp only [if_true, e1, bind, Except.bind]
      cases ot with
      | none =>
        have := Did.last h hd p e3 e2 (e5 rfl)
        rw [hd] at this
        exact ⟨_, _, rfl, this⟩
      | some u =>
        obtain ⟨f1, f2, f3⟩ := e4 u rfl
        have := Did.up h hd p u f1 e2 f2 f3
        rw [hd] at this
        exact ⟨_, _, rfl, this⟩
  unfold walkStep Walk.cap
  cases hu : s.table with
  | none =>
    simp only [bind, Except.bind, ge_iff_le, Nat.zero_le, if_true]
    have := up (by simp [hu])
    rw [hu] at this
    exact this
  | some u =>
    obtain ⟨tb, h1, h2⟩ := table u hu
    simp only [World.table_ok h1, bind, Except.bind, ge_iff_le]
    by_cases hc : tb.cap ≤ s.index
    · rw [if_pos hc]
      have := up (by
        intro u' tb' k1 k2
        rw [hu] at k1; cases k1
        rw [h1] at k2; cases k2
        exact hc)
      rw [hu] at this
      exact this
    · rw [if_neg hc]
      have hi : s.index < tb.cap := by omega
      unfold walkSlot
      simp only [World.table_ok h1, bind, Except.bind, Table.item, if_pos hi]
      obtain ⟨ob, so, ho, hs, _⟩ := sim.get lt
      cases hk : (tb.items s.index).key with
      | none =>
        have := Did.skip (sp := sp) u tb hu h1 hi hk
        rw [hu] at this
        exact ⟨_, _, rfl, this⟩
      | some k =>
        simp only
        cases hd : s.deep with
        | false =>
          have := Did.read u tb hu h1 hi k hk (by simp [hd]) so hs
          rw [hu, hd] at this
          simp only [Bool.false_eq_true, if_false]
          rw [readItem_spec sim { s with index := s.index + 1, table := some u, deep := false } h1 (h2 hi) hs hi hk]
          exact ⟨_, _, rfl, this⟩
        | true =>
          simp only [if_true]
          by_cases hm : k ∈ s.keys
          · rw [if_pos hm]
            have := Did.seen (sp := sp) u tb hu h1 hi hd k hk hm
            rw [hu, hd] at this
            exact ⟨_, _, rfl, this⟩
          · rw [if_neg hm]
            have := Did.read u tb hu h1 hi k hk (fun _ => hm) so hs
            rw [hu, hd] at this
            rw [readItem_spec sim { s with index := s.index + 1, table := some u, deep := true, keys := k :: s.keys } h1 (h2 hi) hs hi hk]
            exact ⟨_, _, rfl, this⟩

theorem Inv.step {H : K → Nat} {w : World K V} {sp : List (SObj K V)} (sim : Sim H w sp) {s s' : Walk K} {t : Track K} (h : Inv w sp s t)
    {r : Turn K V} (d : Did w sp s s' r) : Allowed sp t r ∧ Inv w sp s' (t.add r) := by
  have past : (∀ u tb, s.table = some u → w.tables[u]? = some tb → tb.cap ≤ s.index) → ∀ k, t.must k → k ∈ t.got := by
    intro hc k hk
    rcases (h.must k hk).2 with h1 | ⟨_, _, u, tb, j, h1, h2, h3, h4, _⟩
    · exact h1
    · have := hc u tb h1 h2; omega
  have gs : ∀ n, s.index ≤ n → t.deep = false → ∀ k ∈ t.got, ∃ u tb j, s.table = some u ∧ w.tables[u]? = some tb ∧ j < n ∧ j < tb.cap ∧
      (tb.items j).key = some k := by
    intro n hn hd k hk
    obtain ⟨u, tb, j, h1, h2, h3, h4, h5⟩ := h.gotShallow hd k hk
    exact ⟨u, tb, j, h1, h2, by omega, h4, h5⟩
  have nx : ∀ u, s.table = some u → ∃ tb, w.tables[u]? = some tb ∧
      (s.index + 1 < tb.cap → ∀ i ob, w.objs[i]? = some ob → ob.table = some u → i = s.prop) := by
    intro u hu
    obtain ⟨tb, h1, h2⟩ := h.table u hu
    exact ⟨tb, h1, fun hlt => h2 (by omega)⟩
  cases d with
  | over hc hd =>
    exact ⟨past hc, h.deep, h.chain, h.lt, h.shallow, nx, h.gotDeep, gs _ (by simp), fun k hk => ⟨(h.must k hk).1, .inl (past hc k hk)⟩⟩
  | last hc hd p hp hch ha =>
    have hne : t.deep ≠ false := by rw [← h.deep, hd]; simp
    refine ⟨past hc, h.deep, Chain.trans h.chain hch, hp, fun e => absurd e hne, fun u hu => ?_, h.gotDeep, fun e => absurd e hne,
      fun k hk => ⟨(h.must k hk).1, .inl (past hc k hk)⟩⟩
    obtain ⟨tb, h1, _⟩ := h.table u hu
    refine ⟨tb, h1, fun hlt => ?_⟩
    have := hc u tb hu h1
    simp only at hlt
    omega
  | up hc hd p u hp hch ht ha =>
    have hne : t.deep ≠ false := by rw [← h.deep, hd]; simp
    refine ⟨trivial, h.deep, Chain.trans h.chain hch, Nat.lt_trans hp h.lt, fun e => absurd e hne, ?_, h.gotDeep, fun e => absurd e hne,
      fun k hk => ⟨(h.must k hk).1, .inl (past hc k hk)⟩⟩
    intro u' hu'
    cases hu'
    obtain ⟨pb, k1, k2⟩ := ht
    obtain ⟨so, _, _, _, _, _, h6⟩ := sim.obj p pb k1
    obtain ⟨_, tb, k3, _⟩ := h6 u k2
    exact ⟨tb, k3, fun _ i ob h1 h2 => sim.own i p ob pb u h1 k1 h2 k2⟩
  | skip u tb hu ht hi hk =>
    refine ⟨trivial, h.deep, h.chain, h.lt, h.shallow, nx, h.gotDeep, gs _ (by simp), fun k hm => ⟨(h.must k hm).1, ?_⟩⟩
    rcases (h.must k hm).2 with h1 | ⟨h0, h00, u', tb', j, h1, h2, h3, h4, h5⟩
    · exact .inl h1
    · rw [hu] at h1; cases h1
      rw [ht] at h2; cases h2
      refine .inr ⟨h0, h00, u, tb, j, hu, ht, ?_, h4, h5⟩
      have : j ≠ s.index := by rintro rfl; rw [hk] at h5; cases h5
      show s.index + 1 ≤ j
      omega
  | seen u tb hu ht hi hd k0 hk hm0 =>
    refine ⟨trivial, h.deep, h.chain, h.lt, h.shallow, nx, h.gotDeep, gs _ (by simp), fun k hm => ⟨(h.must k hm).1, ?_⟩⟩
    rcases (h.must k hm).2 with h1 | ⟨h0, h00, u', tb', j, h1, h2, h3, h4, h5⟩
    · exact .inl h1
    · rw [hu] at h1; cases h1
      rw [ht] at h2; cases h2
      refine .inr ⟨h0, h00, u, tb, j, hu, ht, ?_, h4, h5⟩
      have : j ≠ s.index := by rintro rfl; rw [hk] at h5; cases h5; exact h0 hm0
      show s.index + 1 ≤ j
      omega
  | read u tb hu ht hi k0 hk hm0 so hs =>
    have hnew : k0 ∉ t.got := by
      intro hg
      cases hd : t.deep with
      | true => exact hm0 (by rw [h.deep, hd]) (h.gotDeep hd k0 hg)
      | false =>
        obtain ⟨u', tb', j, h1, h2, h3, h4, h5⟩ := h.gotShallow hd k0 hg
        rw [hu] at h1; cases h1
        rw [ht] at h2; cases h2
        have := sim.uniq ht j h4 s.index hi k0 h5 hk
        omega
    have mst : ∀ k, t.must k → k ∈ (t.add (Turn.of k0 (so.map k0))).got ∨
        (k ∉ (if s.deep then k0 :: s.keys else s.keys) ∧ s.prop = t.o ∧
          ∃ u tb j, s.table = some u ∧ w.tables[u]? = some tb ∧ s.index + 1 ≤ j ∧ j < tb.cap ∧ (tb.items j).key = some k) := by
      intro k hm
      obtain ⟨⟨so', e1, e2⟩, h1 | ⟨h0, h00, u', tb', j, h1, h2, h3, h4, h5⟩⟩ := h.must k hm
      · left
        cases so.map k0 with
        | none => exact h1
        | some v => exact List.mem_cons_of_mem _ h1
      · rw [hu] at h1; cases h1
        rw [ht] at h2; cases h2
        by_cases e : k = k0
        · left
          subst e
          rw [← h00, hs] at e1; cases e1
          cases hv : so.map k with
          | none => exact absurd hv e2
          | some v => exact List.mem_cons_self
        · right
          refine ⟨?_, h00, u, tb, j, hu, ht, ?_, h4, h5⟩
          · split
            · simp only [List.mem_cons, not_or]; exact ⟨e, h0⟩
            · exact h0
          · have : j ≠ s.index := by rintro rfl; rw [hk] at h5; cases h5; exact e rfl
            omega
    refine ⟨?_, ?_⟩
    · cases hv : so.map k0 with
      | none => trivial
      | some v => exact ⟨hnew, s.prop, so, h.chain, h.shallow, hs, hv⟩
    · have hadd : (t.add (Turn.of k0 (so.map k0))).deep = t.deep ∧ (t.add (Turn.of k0 (so.map k0))).o = t.o ∧
          (t.add (Turn.of k0 (so.map k0))).must = t.must ∧ ∀ k ∈ (t.add (Turn.of k0 (so.map k0))).got, k = k0 ∨ k ∈ t.got := by
        cases so.map k0 with
        | none => exact ⟨rfl, rfl, rfl, fun k hk => .inr hk⟩
        | some v => exact ⟨rfl, rfl, rfl, fun k hk => List.mem_cons.mp hk⟩
      obtain ⟨a1, a2, a3, a4⟩ := hadd
      refine ⟨by rw [a1]; exact h.deep, by rw [a2]; exact h.chain, h.lt, by rw [a1, a2]; exact h.shallow, nx, ?_, ?_, ?_⟩
      · rw [a1]
        intro hd k hg
        have hsd : s.deep = true := by rw [h.deep, hd]
        simp only [hsd, if_true]
        rcases a4 k hg with rfl | hg
        · exact List.mem_cons_self
        · exact List.mem_cons_of_mem _ (h.gotDeep hd k hg)
      · rw [a1]
        intro hd k hg
        rcases a4 k hg with rfl | hg
        · exact ⟨u, tb, s.index, hu, ht, Nat.lt_succ_self _, hi, hk⟩
        · exact gs _ (by simp) hd k hg
      · rw [a3, a2]
        intro k hm
        exact ⟨(h.must k hm).1, mst k hm⟩

/-- The operation removes property `k` of object `o`. -/
def Deletes (o : Nat) (k : K) : ObjOp K V → Prop
  | .del o' k' => o' = o ∧ k' = k
  | _ => False

def Track.after (t : Track K) (op : ObjOp K V) : Track K := { t with must := fun k => t.must k ∧ ¬ Deletes t.o k op }

theorem bind_keeps {sp : List (SObj K V)} {a o : Nat} {so : SObj K V} {k k' : K} {ov : Option V} (hs : sp[o]? = some so) (hk : so.map k ≠ none)
    (hov : ov = none → ¬ (a = o ∧ k' = k)) : ∃ so', (Spec.bind sp a k' ov)[o]? = some so' ∧ so'.map k ≠ none := by
  unfold Spec.bind
  cases ha : sp[a]? with
  | none => exact ⟨so, hs, hk⟩
  | some sa =>
    simp only
    by_cases e : a = o
    · subst e
      rw [hs] at ha; cases ha
      refine ⟨_, List.getElem?_set_self (List.getElem?_eq_some_iff.mp hs).1, ?_⟩
      simp only
      split
      · rename_i e; subst e
        intro h; exact hov h ⟨rfl, rfl⟩
      · exact hk
    · exact ⟨so, by rw [List.getElem?_set_ne e]; exact hs, hk⟩

theorem step_keeps {dyn : V → Bool} {sp sp' : List (SObj K V)} {op : ObjOp K V} {out : Out V} (h : ObjSpec.Step dyn sp op out sp') {o : Nat}
    {so : SObj K V} {k : K} (hs : sp[o]? = some so) (hk : so.map k ≠ none) (hd : ¬ Deletes o k op) :
    ∃ so', sp'[o]? = some so' ∧ so'.map k ≠ none := by
  have wr : ∀ a k' ov out', (ov = none → ¬ (a = o ∧ k' = k)) → Spec.Wrote dyn sp a k' ov out' sp' → ∃ so', sp'[o]? = some so' ∧ so'.map k ≠ none := by
    rintro a k' ov out' hov ⟨sa, _, ⟨_, _, _, _, _, rfl⟩ | ⟨_, _, rfl⟩ | ⟨_, rfl⟩⟩
    · exact ⟨so, hs, hk⟩
    · exact bind_keeps hs hk hov
    · exact ⟨so, hs, hk⟩
  cases op with
  | new p q =>
    obtain ⟨_, rfl⟩ := h
    exact ⟨so, by rw [List.getElem?_append_left (List.getElem?_eq_some_iff.mp hs).1]; exact hs, hk⟩
  | set a k' v =>
    obtain ⟨sa, _, h1, h2⟩ := h
    cases hp : sa.props with
    | false => rw [(h1 hp).2]; exact ⟨so, hs, hk⟩
    | true => exact wr _ _ _ _ (by simp) (h2 hp)
  | del a k' =>
    obtain ⟨sa, _, h1, h2⟩ := h
    cases hp : sa.props with
    | false => rw [(h1 hp).2]; exact ⟨so, hs, hk⟩
    | true => exact wr _ _ _ _ (fun _ => hd) (h2 hp)
  | get a k' => obtain ⟨_, _, rfl, _⟩ := h; exact ⟨so, hs, hk⟩
  | getDeep a k' => obtain ⟨_, _, rfl, _⟩ := h; exact ⟨so, hs, hk⟩

theorem Inv.op {H : K → Nat} {w w' : World K V} {sp sp' : List (SObj K V)} (sim : Sim H w sp) (sim' : Sim H w' sp') (e : Ext w w') {s : Walk K}
    {t : Track K} (h : Inv w sp s t) {dyn : V → Bool} {op : ObjOp K V} {out : Out V} (st : ObjSpec.Step dyn sp op out sp')
    (hl : sp.length ≤ sp'.length) : Inv w' sp' s (t.after op) := by
  refine ⟨h.deep, Chain.keep sim sim' e h.chain, Nat.lt_of_lt_of_le h.lt hl, h.shallow, fun u hu => ?_, h.gotDeep, fun hd k hk => ?_,
    fun k hm => ?_⟩
  · obtain ⟨tb, h1, h2⟩ := h.table u hu
    obtain ⟨tb', h3, h4⟩ := e.tables u tb h1
    refine ⟨tb', h3, fun hlt i ob' h5 h6 => ?_⟩
    obtain ⟨ob, h7, h8⟩ := e.mine i u ob' h5 h6 (List.getElem?_eq_some_iff.mp h1).1
    exact h2 (by rw [← h4.1]; exact hlt) i ob h7 h8
  · obtain ⟨u, tb, j, h1, h2, h3, h4, h5⟩ := h.gotShallow hd k hk
    obtain ⟨tb', h6, h7⟩ := e.tables u tb h2
    exact ⟨u, tb', j, h1, h6, h3, by rw [h7.1]; exact h4, h7.2 j k h5⟩
  · obtain ⟨⟨so, e1, e2⟩, h1⟩ := h.must k hm.1
    refine ⟨step_keeps st e1 e2 hm.2, ?_⟩
    rcases h1 with h1 | ⟨h0, h00, u, tb, j, h1, h2, h3, h4, h5⟩
    · exact .inl h1
    · obtain ⟨tb', h6, h7⟩ := e.tables u tb h2
      exact .inr ⟨h0, h00, u, tb', j, h1, h6, h3, by rw [h7.1]; exact h4, h7.2 j k h5⟩

theorem newWalk_inv {H : K → Nat} {w : World K V} {sp : List (SObj K V)} (sim : Sim H w sp) {o : Nat} (ho : o < sp.length) (deep : Bool) :
    ∃ s so, newWalk w o deep = .ok s ∧ sp[o]? = some so ∧ s.prop = o ∧ s.keys = [] ∧ s.index = 0 ∧ s.deep = deep ∧
      (∃ ob, w.objs[o]? = some ob ∧ ob.table = s.table) ∧ Inv w sp s ⟨o, deep, fun k => so.map k ≠ none, []⟩ := by
  obtain ⟨ob, so, h1, h2, h3, h4, h5, h6, h7⟩ := sim.get ho
  have ht : (if ob.props then ob.table else none) = ob.table := by
    cases hb : ob.table with
    | none => simp
    | some u => simp [(h7 u hb).1]
  refine ⟨⟨deep, 0, o, ob.table, []⟩, so, ?_, h2, rfl, rfl, rfl, rfl, ⟨ob, h1, rfl⟩, rfl, .refl, ho, fun _ => rfl, ?_, by simp, by simp, ?_⟩
  · simp only [newWalk, World.obj_ok h1, bind, Except.bind, ht]
  · intro u hu
    obtain ⟨_, tb, k1, _⟩ := h7 u hu
    exact ⟨tb, k1, fun _ i ob' k2 k3 => sim.own i o ob' ob u k2 h1 k3 hu⟩
  · intro k hk
    refine ⟨⟨so, h2, hk⟩, .inr ⟨by simp, rfl, ?_⟩⟩
    cases hb : ob.table with
    | none => exact absurd (by rw [h6 hb]) hk
    | some u =>
      obtain ⟨_, tb, k1, g, r⟩ := h7 u hb
      cases hv : so.map k with
      | none => exact absurd hv hk
      | some v =>
        obtain ⟨j, k2, k3, _⟩ := (r k v).mp hv
        exact ⟨u, tb, j, rfl, k1, Nat.zero_le _, k2, k3⟩

end Verif.Obj
