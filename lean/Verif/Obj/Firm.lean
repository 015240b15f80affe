import Verif.Obj.WalkDeep

/-! A property which no object ever deletes leaves no slots without a value. -/
namespace Verif.Obj

open Verif.Props

set_option linter.unusedSectionVars false

variable {K V : Type} [DecidableEq K]

def FirmT (k : K) (t : Table K V) : Prop := ∀ i, (t.items i).key = some k → (t.items i).val ≠ .tomb

def Firm (k : K) (w : World K V) : Prop := ∀ (u : Nat) (tb : Table K V), w.tables[u]? = some tb → FirmT k tb

theorem FirmT.set {k : K} {t : Table K V} (h : FirmT k t) (i u : Nat) (x : Item K V) (hx : x.key = some k → x.val ≠ .tomb) :
    FirmT k ({ t with used := u }.setItem i x) := by
  intro j hj
  simp only [Table.setItem] at hj ⊢
  split at hj
  · rename_i e; rw [if_pos e]; exact hx hj
  · rename_i e; rw [if_neg e]; exact h j hj

theorem FirmT.set' {k : K} {t : Table K V} (h : FirmT k t) (i : Nat) (x : Item K V) (hx : x.key = some k → x.val ≠ .tomb) :
    FirmT k (t.setItem i x) := h.set i t.used x hx

theorem Firm.set {k : K} {w : World K V} (h : Firm k w) (ti : Nat) {t : Table K V} (ht : FirmT k t) : Firm k { w with tables := w.tables.set ti t } := by
  intro u tb hu
  simp only at hu
  by_cases e : ti = u
  · subst e
    rw [List.getElem?_set_self (by have := (List.getElem?_eq_some_iff.mp hu).1; simpa using this)] at hu
    cases hu; exact ht
  · rw [List.getElem?_set_ne e] at hu
    exact h u tb hu

theorem claim_firm {k key : K} {hash : Nat} : ∀ {f idx j : Nat} {t t' : Table K V}, claim key hash f t idx = .ok (t', j) → FirmT k t →
    ∀ v : Val V, v ≠ .tomb → FirmT k (t'.setItem j { t'.items j with val := v }) ∧ ((t'.items j).val ≠ .tomb → FirmT k t') := by
  intro f
  induction f with
  | zero => intro idx j t t' h; cases h
  | succ f ih =>
    intro idx j t t' h ht v hv
    rw [claim] at h
    obtain ⟨x, h1, h⟩ := bind_ok h
    split at h
    · injection h with h; injection h with h h'
      subst h; subst h'
      constructor
      · intro i hi
        simp only [Table.setItem] at hi ⊢
        split
        · exact hv
        · rename_i e
          simp only [if_neg e] at hi ⊢
          exact ht i hi
      · intro hn i hi
        simp only [Table.setItem] at hi hn ⊢
        split
        · rename_i e; simpa using hn
        · rename_i e
          rw [if_neg e] at hi
          exact ht i hi
    · split at h
      · cases h
        exact ⟨ht.set' _ _ (fun _ => hv), fun _ => ht⟩
      · exact ih h ht v hv

theorem salvage_firm {k : K} {old new old' new' : Table K V} {i : Nat} {b : Bool} (h : salvage old new i = .ok (old', new', b))
    (ho : FirmT k old) (hn : FirmT k new) : FirmT k old' ∧ FirmT k new' := by
  unfold salvage at h
  obtain ⟨x, h1, h⟩ := bind_ok h
  split at h
  · cases h; exact ⟨ho.set' _ _ (fun _ => by simp), hn⟩
  · cases h; exact ⟨ho, hn⟩
  · rename_i v hv1 hv2
    split at h
    · cases h
    · obtain ⟨⟨n2, idx⟩, h2, h⟩ := bind_ok h
      obtain ⟨y, h3, h⟩ := bind_ok h
      have hy := (item_some h3).2
      subst hy
      obtain ⟨c1, c2⟩ := claim_firm h2 hn x.val (fun e => hv1 e)
      simp only at h
      split at h
      · cases h; exact ⟨ho.set' _ _ (fun _ => by simp), c1⟩
      · rename_i hne
        cases h; exact ⟨ho, c2 (fun e => hne e)⟩

theorem copyLoop_firm {k : K} : ∀ (n i : Nat) {old new old' new' : Table K V}, copyLoop n old new i = .ok (old', new') → FirmT k old → FirmT k new →
    FirmT k old' ∧ FirmT k new' := by
  intro n
  induction n with
  | zero => intro i old new old' new' h; cases h
  | succ n ih =>
    intro i old new old' new' h ho hn
    rw [copyLoop] at h
    obtain ⟨⟨o2, n2, b⟩, h1, h⟩ := bind_ok h
    obtain ⟨k1, k2⟩ := salvage_firm h1 ho hn
    have k1' : FirmT k { o2 with opn := o2.opn - 1 } := k1
    simp only at h
    split at h
    · split at h
      · cases h; exact ⟨k1', k2⟩
      · exact ih _ h k1' k2
    · split at h
      · cases h; exact ⟨k1, k2⟩
      · exact ih _ h k1 k2

theorem newTable_firm {k : K} {cap : Nat} {t : Table K V} (h : newTable cap = .ok t) : FirmT k t := by
  unfold newTable at h
  split at h
  · cases h
    intro i hi; cases hi
  · cases h

theorem Firm.push {k : K} {tabs : List (Table K V)} (h : ∀ (u : Nat) (tb : Table K V), tabs[u]? = some tb → FirmT k tb) {t : Table K V} (ht : FirmT k t) :
    ∀ (u : Nat) (tb : Table K V), (tabs ++ [t])[u]? = some tb → FirmT k tb := by
  intro u tb hu
  rcases Nat.lt_trichotomy u tabs.length with e | e | e
  · rw [List.getElem?_append_left e] at hu; exact h u tb hu
  · subst e; simp only [List.getElem?_concat_length, Option.some.injEq] at hu; subst hu; exact ht
  · have := (List.getElem?_eq_some_iff.mp hu).1
    simp at this; omega

theorem resize_firm {k : K} {mem : Nat → Nat → Bool} {w w' : World K V} {o : Nat} {old : Option Nat} {f : Nat} {b : Bool}
    (h : resize mem w o old f = .ok (w', b)) (hw : Firm k w) : Firm k w' := by
  unfold resize at h
  obtain ⟨ob, h1, h⟩ := bind_ok h
  cases old with
  | none =>
    simp only at h
    split at h
    · obtain ⟨t, h2, h⟩ := bind_ok h
      cases h
      exact Firm.push hw (newTable_firm h2)
    · cases h; exact hw
  | some oi =>
    simp only at h
    obtain ⟨ot, h2, h⟩ := bind_ok h
    have hot : FirmT k { ot with next := some w.tables.length } := hw oi ot (table_some h2)
    generalize (if ot.cap ≠ 0 then ot.cap * f % 4294967296 else 4) = cap at h
    split at h
    · cases h
    · split at h
      · obtain ⟨t, h3, h⟩ := bind_ok h
        obtain ⟨⟨ot2, t2⟩, h4, h⟩ := bind_ok h
        unfold copyTable at h4
        obtain ⟨c1, c2⟩ := copyLoop_firm _ _ h4 hot (newTable_firm h3)
        cases h
        exact Firm.push (hw.set oi c1) c2
      · cases h; exact hw

theorem probe_match {t : Table K V} {k : K} {hash : Nat} : ∀ {f i n j m : Nat}, probe t k hash f i n = .ok (.match j m) → (t.items j).key = some k := by
  intro f
  induction f with
  | zero => intro i n j m h; cases h
  | succ f ih =>
    intro i n j m h
    rw [probe] at h
    obtain ⟨x, h1, h⟩ := bind_ok h
    have hx := (item_some h1).2
    split at h
    · cases h
    · rename_i k' hk
      split at h
      · rename_i he
        cases h
        rw [hx, hk]
        unfold isKeyEqual at he
        split at he
        · cases he
        · simpa using (of_decide_eq_true he).symm
      · split at h
        · cases h
        · exact ih h

theorem setOnce_firm {k : K} {mem : Nat → Nat → Bool} {dyn : V → Bool} {w w' : World K V} {o ti ti' : Nat} {key : K} {hash : Nat} {v : Val V}
    {r : SetRes V} (h : setOnce mem dyn w o ti key hash v = .ok (w', ti', r)) (hw : Firm k w) (hv : v ≠ .tomb ∨ key ≠ k) : Firm k w' := by
  unfold setOnce at h
  obtain ⟨t, h1, h⟩ := bind_ok h
  have ht := hw ti t (table_some h1)
  obtain ⟨p, h2, h⟩ := bind_ok h
  split at h
  · obtain ⟨⟨w2, ok⟩, h3, h⟩ := bind_ok h
    have he := resize_firm h3 hw
    simp only at h
    split at h
    · obtain ⟨ob, h4, h⟩ := bind_ok h
      split at h
      · cases h; exact he
      · cases h
    · cases h; exact he
  · rename_i i n
    have main : v = .tomb ∨ v ≠ .tomb := Classical.em _
    rcases main with rfl | hne
    · simp only [if_true] at h
      cases h; exact hw
    · have hf : (match v with | .tomb => true | _ => false) = false := by cases v <;> first | rfl | exact absurd rfl hne
      simp only [hf, Bool.false_eq_true, if_false] at h
      cases hx : (t.items i).val with
      | closed => simp only [hx] at h; cases h
      | val d =>
        simp only [hx] at h
        split at h
        · injection h with h; injection h with h; subst h; exact hw.set ti (ht.set _ _ _ (fun _ => by simp))
        · injection h with h; injection h with h; subst h; exact hw.set ti (ht.set _ _ _ (fun _ => hne))
      | _ => simp only [hx] at h; injection h with h; injection h with h; subst h; exact hw.set ti (ht.set _ _ _ (fun _ => hne))
  · rename_i i n
    have hk := probe_match h2
    have hset : Firm k { w with tables := w.tables.set ti (t.setItem i { t.items i with val := v }) } := by
      refine hw.set ti (ht.set' _ _ (fun e => ?_))
      rcases hv with hv | hv
      · exact hv
      · simp only [hk] at e; cases e; exact absurd rfl hv
    cases hx : (t.items i).val with
    | closed => simp only [hx] at h; cases h
    | val d =>
      simp only [hx] at h
      rcases ite_ok h with h | h
      · cases h; exact hw
      · injection h with h; injection h with h; subst h; exact hset
    | _ => simp only [hx] at h; injection h with h; injection h with h; subst h; exact hset

theorem setLoop_firm {k : K} {mem : Nat → Nat → Bool} {dyn : V → Bool} {o : Nat} {key : K} {hash : Nat} {v : Val V} (hv : v ≠ .tomb ∨ key ≠ k) :
    ∀ (fuel : Nat) {w w' : World K V} {ti : Nat} {out : Out V}, setLoop mem dyn o key hash v fuel w ti = .ok (w', out) → Firm k w → Firm k w' := by
  intro fuel
  induction fuel with
  | zero => intro w w' ti out h; cases h
  | succ fuel ih =>
    intro w w' ti out h hw
    rw [setLoop] at h
    obtain ⟨⟨w2, ti2, r⟩, h1, h⟩ := bind_ok h
    have he := setOnce_firm h1 hw hv
    simp only at h
    split at h
    · exact ih h he
    · cases h; exact he
    · cases h; exact he
    · obtain ⟨t, h2, h⟩ := bind_ok h
      split at h
      · obtain ⟨⟨w3, ok⟩, h3, h⟩ := bind_ok h
        cases h
        exact resize_firm h3 he
      · cases h; exact he

theorem setProperty_firm {k : K} {mem : Nat → Nat → Bool} {dyn : V → Bool} {H : K → Nat} {w w' : World K V} {o : Nat} {key : K} {v : Val V}
    {out : Out V} (h : setProperty mem dyn H w o key v = .ok (w', out)) (hw : Firm k w) (hv : v ≠ .tomb ∨ key ≠ k) : Firm k w' := by
  unfold setProperty at h
  obtain ⟨ob, h1, h⟩ := bind_ok h
  split at h
  · split at h
    · exact setLoop_firm hv _ h hw
    · split at h
      · cases h; exact hw
      · obtain ⟨⟨w2, ok⟩, h2, h⟩ := bind_ok h
        have he := resize_firm h2 hw
        simp only at h
        split at h
        · obtain ⟨ob2, h3, h⟩ := bind_ok h
          split at h
          · exact setLoop_firm hv _ h he
          · cases h
        · cases h; exact he
  · cases h; exact hw

theorem objStep_firm {k : K} {mem : Nat → Nat → Bool} {dyn : V → Bool} {H : K → Nat} {w w' : World K V} {op : ObjOp K V} {out : Out V}
    (h : objStep mem dyn H w op = .ok (w', out)) (hw : Firm k w) (hd : ∀ o, op ≠ .del o k) : Firm k w' := by
  cases op with
  | new p q => simp only [objStep] at h; injection h with h; injection h with h; subst h; exact hw
  | set o key v => exact setProperty_firm h hw (.inl (by simp))
  | del o key =>
    simp only [objStep] at h
    unfold deleteProperty at h
    obtain ⟨ob, h1, h⟩ := bind_ok h
    split at h
    · exact setProperty_firm h hw (.inr (fun e => hd o (by rw [e])))
    · cases h; exact hw
  | get o key =>
    simp only [objStep] at h
    cases hg : getProperty H w o key true with
    | error e => rw [hg] at h; cases h
    | ok r => rw [hg] at h; cases h; exact hw
  | getDeep o key =>
    simp only [objStep] at h
    cases hg : getProperty H w o key false with
    | error e => rw [hg] at h; cases h
    | ok r => rw [hg] at h; cases h; exact hw

theorem Firm.noGap {k : K} {H : K → Nat} {w : World K V} {sp : List (SObj K V)} (sim : Sim H w sp) (hw : Firm k w) : NoGap w sp k := by
  intro i ob so u tb j h1 h2 h3 h4 h5 h6
  obtain ⟨so', k1, _, _, _, _, k6⟩ := sim.obj i ob h1
  rw [h2] at k1; cases k1
  obtain ⟨_, tb', k7, g, r⟩ := k6 u h3
  rw [h4] at k7; cases k7
  have l := g.live j h5
  have f := hw u tb h4 j h6
  cases hv : (tb.items j).val with
  | tomb => exact absurd hv f
  | closed => exact absurd hv l.1
  | reserved => exact absurd hv l.2
  | val v => rw [(r k v).mpr ⟨j, h5, h6, hv⟩]; simp

end Verif.Obj
