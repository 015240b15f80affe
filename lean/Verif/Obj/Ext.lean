import Verif.Obj.Walk
import Verif.Obj.Ops

/-! What operations on properties leave alone: keys stay where they are, and an object does not get a table of another object. -/
namespace Verif.Obj

set_option linter.unusedSectionVars false

variable {K V : Type} [DecidableEq K]

/-- The keys of a table are still there. -/
def Keeps (t t' : Table K V) : Prop := t'.cap = t.cap ∧ ∀ i k, (t.items i).key = some k → (t'.items i).key = some k

theorem Keeps.refl (t : Table K V) : Keeps t t := ⟨rfl, fun _ _ h => h⟩
theorem Keeps.trans {a b c : Table K V} (h1 : Keeps a b) (h2 : Keeps b c) : Keeps a c :=
  ⟨h2.1.trans h1.1, fun i k h => h2.2 i k (h1.2 i k h)⟩

structure Ext (w w' : World K V) : Prop where
  tables : ∀ (t : Nat) (tb : Table K V), w.tables[t]? = some tb → ∃ tb', w'.tables[t]? = some tb' ∧ Keeps tb tb'
  objs : ∀ (i : Nat) (ob : Object), w.objs[i]? = some ob → ∃ ob', w'.objs[i]? = some ob' ∧ ob'.proto = ob.proto ∧ ob'.props = ob.props
  mine : ∀ (i t : Nat) (ob' : Object), w'.objs[i]? = some ob' → ob'.table = some t → t < w.tables.length →
    ∃ ob, w.objs[i]? = some ob ∧ ob.table = some t

theorem Ext.refl (w : World K V) : Ext w w :=
  ⟨fun _ tb h => ⟨tb, h, .refl tb⟩, fun _ ob h => ⟨ob, h, rfl, rfl⟩, fun _ _ ob h1 h2 _ => ⟨ob, h1, h2⟩⟩

theorem Ext.len {w w' : World K V} (h : Ext w w') : w.tables.length ≤ w'.tables.length := by
  by_cases e : w.tables.length = 0
  · omega
  · obtain ⟨tb, h1, _⟩ := h.tables (w.tables.length - 1) w.tables[w.tables.length - 1] (List.getElem?_eq_getElem (by omega))
    have := (List.getElem?_eq_some_iff.mp h1).1
    omega

theorem Ext.trans {a b c : World K V} (h1 : Ext a b) (h2 : Ext b c) : Ext a c := by
  refine ⟨fun t tb h => ?_, fun i ob h => ?_, fun i t ob' h3 h4 h5 => ?_⟩
  · obtain ⟨tb1, k1, k2⟩ := h1.tables t tb h
    obtain ⟨tb2, k3, k4⟩ := h2.tables t tb1 k1
    exact ⟨tb2, k3, k2.trans k4⟩
  · obtain ⟨ob1, k1, k2, k3⟩ := h1.objs i ob h
    obtain ⟨ob2, k4, k5, k6⟩ := h2.objs i ob1 k1
    exact ⟨ob2, k4, k5.trans k2, k6.trans k3⟩
  · obtain ⟨ob1, k1, k2⟩ := h2.mine i t ob' h3 h4 (Nat.lt_of_lt_of_le h5 h1.len)
    exact h1.mine i t ob1 k1 k2 h5

theorem Ext.reqs (w : World K V) (n : Nat) : Ext w { w with reqs := n } :=
  ⟨fun _ tb h => ⟨tb, h, .refl tb⟩, fun _ ob h => ⟨ob, h, rfl, rfl⟩, fun _ _ ob h1 h2 _ => ⟨ob, h1, h2⟩⟩

theorem Ext.set {w : World K V} {ti : Nat} {t t' : Table K V} (h : w.tables[ti]? = some t) (k : Keeps t t') :
    Ext w { w with tables := w.tables.set ti t' } := by
  refine ⟨fun u tb hu => ?_, fun _ ob h => ⟨ob, h, rfl, rfl⟩, fun _ _ ob h1 h2 _ => ⟨ob, h1, h2⟩⟩
  by_cases e : ti = u
  · subst e
    rw [h] at hu; cases hu
    exact ⟨t', by simp [(List.getElem?_eq_some_iff.mp h).1], k⟩
  · exact ⟨tb, by simp only [List.getElem?_set_ne e]; exact hu, .refl tb⟩

theorem table_some {w : World K V} {i : Nat} {t : Table K V} (h : w.table i = .ok t) : w.tables[i]? = some t := by
  unfold World.table at h
  split at h
  · rename_i e; cases h; exact e
  · cases h

theorem obj_some {w : World K V} {i : Nat} {t : Object} (h : w.obj i = .ok t) : w.objs[i]? = some t := by
  unfold World.obj at h
  split at h
  · rename_i e; cases h; exact e
  · cases h

theorem item_some {t : Table K V} {i : Nat} {x : Item K V} (h : t.item i = .ok x) : i < t.cap ∧ t.items i = x := by
  unfold Table.item at h
  split at h
  · rename_i e; cases h; exact ⟨e, rfl⟩
  · cases h

theorem bind_ok {α β : Type} {x : Except Err α} {f : α → Except Err β} {r : β} (h : (do let a ← x; f a) = .ok r) :
    ∃ a, x = .ok a ∧ f a = .ok r := by
  cases x with
  | error e => cases h
  | ok a => exact ⟨a, rfl, h⟩

theorem Keeps.setVal (t : Table K V) (i : Nat) (v : Val V) : Keeps t (t.setItem i { t.items i with val := v }) := by
  refine ⟨rfl, fun j k h => ?_⟩
  simp only [Table.setItem]
  split
  · rename_i e; subst e; exact h
  · exact h

theorem salvage_keeps {old new old' new' : Table K V} {i : Nat} {b : Bool} (h : salvage old new i = .ok (old', new', b)) : Keeps old old' := by
  unfold salvage at h
  obtain ⟨x, h1, h⟩ := bind_ok h
  have hx := (item_some h1).2
  subst hx
  split at h
  · cases h; exact .setVal _ _ _
  · cases h; exact .refl _
  · split at h
    · cases h
    · obtain ⟨⟨n2, idx⟩, h2, h⟩ := bind_ok h
      obtain ⟨y, h3, h⟩ := bind_ok h
      simp only at h
      split at h
      · cases h; exact .setVal _ _ _
      · cases h; exact .refl _

theorem copyLoop_keeps : ∀ (n i : Nat) {old new old' new' : Table K V}, copyLoop n old new i = .ok (old', new') → Keeps old old' := by
  intro n
  induction n with
  | zero => intro i old new old' new' h; cases h
  | succ n ih =>
    intro i old new old' new' h
    rw [copyLoop] at h
    obtain ⟨⟨o2, n2, b⟩, h1, h⟩ := bind_ok h
    have k1 := salvage_keeps h1
    simp only at h
    split at h
    · split at h
      · cases h; exact k1
      · exact k1.trans (Keeps.trans (b := { o2 with opn := o2.opn - 1 }) ⟨rfl, fun _ _ x => x⟩ (ih _ h))
    · split at h
      · cases h; exact k1
      · exact k1.trans (ih _ h)

theorem copyTable_keeps {old new old' new' : Table K V} (h : copyTable old new = .ok (old', new')) : Keeps old old' := by
  unfold copyTable at h
  exact Keeps.trans ⟨rfl, fun _ _ x => x⟩ (copyLoop_keeps _ _ h)

theorem resize_ext {mem : Nat → Nat → Bool} {w w' : World K V} {o : Nat} {old : Option Nat} {f : Nat} {b : Bool}
    (h : resize mem w o old f = .ok (w', b)) : Ext w w' := by
  unfold resize at h
  obtain ⟨ob, h1, h⟩ := bind_ok h
  have ho := obj_some h1
  have hlen := (List.getElem?_eq_some_iff.mp ho).1
  have key : ∀ (tabs : List (Table K V)) (t : Table K V) (n : Nat), tabs.length = w.tables.length →
      (∀ (u : Nat) (tb : Table K V), w.tables[u]? = some tb → ∃ tb', tabs[u]? = some tb' ∧ Keeps tb tb') →
      Ext w ⟨tabs ++ [t], w.objs.set o { ob with table := some w.tables.length }, n⟩ := by
    intro tabs t n hl ht
    refine ⟨fun u tb hu => ?_, fun i oi hi => ?_, fun i u ob' h3 h4 h5 => ?_⟩
    · obtain ⟨tb', k1, k2⟩ := ht u tb hu
      exact ⟨tb', by simp only [List.getElem?_append_left (List.getElem?_eq_some_iff.mp k1).1]; exact k1, k2⟩
    · by_cases e : o = i
      · subst e
        rw [ho] at hi; cases hi
        exact ⟨_, List.getElem?_set_self hlen, rfl, rfl⟩
      · exact ⟨oi, by simp only [List.getElem?_set_ne e]; exact hi, rfl, rfl⟩
    · by_cases e : o = i
      · subst e
        simp only [List.getElem?_set_self hlen] at h3
        cases h3; cases h4; omega
      · simp only [List.getElem?_set_ne e] at h3
        exact ⟨ob', h3, h4⟩
  cases old with
  | none =>
    simp only at h
    split at h
    · obtain ⟨t, h2, h⟩ := bind_ok h
      cases h
      exact key w.tables t _ rfl (fun u tb hu => ⟨tb, hu, .refl tb⟩)
    · cases h; exact .reqs _ _
  | some oi =>
    simp only at h
    obtain ⟨ot, h2, h⟩ := bind_ok h
    have hot := table_some h2
    generalize (if ot.cap ≠ 0 then ot.cap * f % 4294967296 else 4) = cap at h
    split at h
    · cases h
    · split at h
      · obtain ⟨t, h3, h⟩ := bind_ok h
        obtain ⟨⟨ot2, t2⟩, h4, h⟩ := bind_ok h
        have hk : Keeps ot ot2 := Keeps.trans (b := { ot with next := some w.tables.length }) ⟨rfl, fun _ _ x => x⟩ (copyTable_keeps h4)
        cases h
        have htabs : ∀ (u : Nat) (tb : Table K V), w.tables[u]? = some tb → ∃ tb', (w.tables.set oi ot2)[u]? = some tb' ∧ Keeps tb tb' :=
          (Ext.set hot hk).tables
        split
        · exact key _ t2 _ (by simp) htabs
        · refine ⟨fun u tb hu => ?_, fun i oi hi => ⟨oi, hi, rfl, rfl⟩, fun i u ob' h3 h4 h5 => ⟨ob', h3, h4⟩⟩
          obtain ⟨tb', k1, k2⟩ := htabs u tb hu
          exact ⟨tb', by simp only [List.getElem?_append_left (List.getElem?_eq_some_iff.mp k1).1]; exact k1, k2⟩
      · cases h; exact .reqs _ _

theorem probe_empty {t : Table K V} {k : K} {hash : Nat} : ∀ {f i n j m : Nat}, probe t k hash f i n = .ok (.empty j m) → (t.items j).key = none := by
  intro f
  induction f with
  | zero => intro i n j m h; cases h
  | succ f ih =>
    intro i n j m h
    rw [probe] at h
    obtain ⟨x, h1, h⟩ := bind_ok h
    have hx := (item_some h1).2
    split at h
    · rename_i hk
      cases h
      rw [hx]; exact hk
    · split at h
      · cases h
      · split at h
        · cases h
        · exact ih h

theorem Keeps.claim (t : Table K V) (i u : Nat) (x : Item K V) (h : (t.items i).key = none) :
    Keeps t ({ t with used := u }.setItem i x) := by
  refine ⟨rfl, fun j k hk => ?_⟩
  simp only [Table.setItem]
  split
  · rename_i e; subst e; rw [h] at hk; cases hk
  · exact hk

theorem ite_ok {α : Type} {c : Prop} [Decidable c] {a b r : α} (h : (if c then a else b) = r) : a = r ∨ b = r := by
  by_cases hc : c
  · rw [if_pos hc] at h; exact .inl h
  · rw [if_neg hc] at h; exact .inr h

theorem setOnce_ext {mem : Nat → Nat → Bool} {dyn : V → Bool} {w w' : World K V} {o ti ti' : Nat} {k : K} {hash : Nat} {v : Val V} {r : SetRes V}
    (h : setOnce mem dyn w o ti k hash v = .ok (w', ti', r)) : Ext w w' := by
  unfold setOnce at h
  obtain ⟨t, h1, h⟩ := bind_ok h
  have ht := table_some h1
  obtain ⟨p, h2, h⟩ := bind_ok h
  split at h
  · obtain ⟨⟨w2, ok⟩, h3, h⟩ := bind_ok h
    have he := resize_ext h3
    simp only at h
    split at h
    · obtain ⟨ob, h4, h⟩ := bind_ok h
      split at h
      · cases h; exact he
      · cases h
    · cases h; exact he
  · rename_i i n
    have hk := probe_empty h2
    have main : v = .tomb ∨ v ≠ .tomb := Classical.em _
    rcases main with rfl | hne
    · simp only [if_true] at h
      cases h; exact .refl _
    · have hf : (match v with | .tomb => true | _ => false) = false := by cases v <;> first | rfl | exact absurd rfl hne
      simp only [hf, Bool.false_eq_true, if_false] at h
      cases hv : (t.items i).val with
      | closed => simp only [hv] at h; cases h
      | val d =>
        simp only [hv] at h
        split at h
        · injection h with h; injection h with h; subst h; exact .set ht (.claim _ _ _ _ hk)
        · injection h with h; injection h with h; subst h; exact .set ht (.claim _ _ _ _ hk)
      | _ => simp only [hv] at h; injection h with h; injection h with h; subst h; exact .set ht (.claim _ _ _ _ hk)
  · rename_i i n
    cases hv : (t.items i).val with
    | closed => simp only [hv] at h; cases h
    | val d =>
      simp only [hv] at h
      rcases ite_ok h with h | h
      · cases h; exact .refl _
      · injection h with h; injection h with h; subst h; exact .set ht (.setVal _ _ _)
    | _ => simp only [hv] at h; injection h with h; injection h with h; subst h; exact .set ht (.setVal _ _ _)

theorem setLoop_ext {mem : Nat → Nat → Bool} {dyn : V → Bool} {o : Nat} {k : K} {hash : Nat} {v : Val V} :
    ∀ (fuel : Nat) {w w' : World K V} {ti : Nat} {out : Out V}, setLoop mem dyn o k hash v fuel w ti = .ok (w', out) → Ext w w' := by
  intro fuel
  induction fuel with
  | zero => intro w w' ti out h; cases h
  | succ fuel ih =>
    intro w w' ti out h
    rw [setLoop] at h
    obtain ⟨⟨w2, ti2, r⟩, h1, h⟩ := bind_ok h
    have he := setOnce_ext h1
    simp only at h
    split at h
    · exact he.trans (ih h)
    · cases h; exact he
    · cases h; exact he
    · obtain ⟨t, h2, h⟩ := bind_ok h
      split at h
      · obtain ⟨⟨w3, ok⟩, h3, h⟩ := bind_ok h
        cases h
        exact he.trans (resize_ext h3)
      · cases h; exact he

theorem setProperty_ext {mem : Nat → Nat → Bool} {dyn : V → Bool} {H : K → Nat} {w w' : World K V} {o : Nat} {k : K} {v : Val V} {out : Out V}
    (h : setProperty mem dyn H w o k v = .ok (w', out)) : Ext w w' := by
  unfold setProperty at h
  obtain ⟨ob, h1, h⟩ := bind_ok h
  split at h
  · split at h
    · exact setLoop_ext _ h
    · split at h
      · cases h; exact .refl _
      · obtain ⟨⟨w2, ok⟩, h2, h⟩ := bind_ok h
        have he := resize_ext h2
        simp only at h
        split at h
        · obtain ⟨ob2, h3, h⟩ := bind_ok h
          split at h
          · exact he.trans (setLoop_ext _ h)
          · cases h
        · cases h; exact he
  · cases h; exact .refl _

theorem deleteProperty_ext {mem : Nat → Nat → Bool} {dyn : V → Bool} {H : K → Nat} {w w' : World K V} {o : Nat} {k : K} {out : Out V}
    (h : deleteProperty mem dyn H w o k = .ok (w', out)) : Ext w w' := by
  unfold deleteProperty at h
  obtain ⟨ob, h1, h⟩ := bind_ok h
  split at h
  · exact setProperty_ext h
  · cases h; exact .refl _

end Verif.Obj
