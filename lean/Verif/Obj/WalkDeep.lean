import Verif.Obj.WalkProof

/-! A whole iteration without changes in between: it ends, and returns what the object has. -/
namespace Verif.Obj

open Verif.Props
open Spec (Chain Deep)

set_option linter.unusedSectionVars false

variable {K V : Type} [DecidableEq K]

/-- All turns until the end of the iteration. -/
def walkAll (H : K → Nat) (w : World K V) : Nat → Walk K → Except Err (List (K × V))
  | 0, _ => .error .fuel
  | n + 1, s =>
    match walkStep H w s with
    | .error e => .error e
    | .ok (s', .more) => walkAll H w n s'
    | .ok (s', .item k v) => (walkAll H w n s').map ((k, v) :: ·)
    | .ok (_, .done) => .ok []

theorem walkAll_more {H : K → Nat} {w : World K V} : ∀ (n : Nat) (s : Walk K) (l : List (K × V)), walkAll H w n s = .ok l → ∀ m, n ≤ m →
    walkAll H w m s = .ok l := by
  intro n
  induction n with
  | zero => intro s l h; cases h
  | succ n ih =>
    intro s l h m hm
    obtain ⟨m, rfl⟩ : ∃ m', m = m' + 1 := ⟨m - 1, by omega⟩
    rw [walkAll] at h ⊢
    split at h
    · cases h
    · exact ih _ _ h m (by omega)
    · rename_i s' k v _
      cases hw : walkAll H w n s' with
      | error e => rw [hw] at h; cases h
      | ok l' => rw [hw] at h; rw [ih _ _ hw m (by omega)]; exact h
    · exact h

/-- The walk can go on. -/
structure Fit (w : World K V) (sp : List (SObj K V)) (s : Walk K) : Prop where
  lt : s.prop < sp.length
  table : ∀ u, s.table = some u → ∃ tb, w.tables[u]? = some tb ∧
    (s.index < tb.cap → ∀ i ob, w.objs[i]? = some ob → ob.table = some u → i = s.prop)

def Walk.left (w : World K V) (s : Walk K) : Nat :=
  match s.table with
  | none => 0
  | some u => match w.tables[u]? with
    | none => 0
    | some tb => tb.cap - s.index

/-- An iteration ends; what holds of every turn holds at the end. -/
theorem walk_ends {H : K → Nat} {w : World K V} {sp : List (SObj K V)} (sim : Sim H w sp) (P : Walk K → List (K × V) → Prop)
    (Q : List (K × V) → Prop) (fit : ∀ s acc, P s acc → Fit w sp s)
    (more : ∀ s acc s', P s acc → Did w sp s s' (.more : Turn K V) → P s' acc)
    (item : ∀ s acc s' k v, P s acc → Did w sp s s' (.item k v) → P s' ((k, v) :: acc))
    (done : ∀ s acc s', P s acc → Did w sp s s' (.done : Turn K V) → Q acc) :
    ∀ (p c : Nat) (s : Walk K) (acc : List (K × V)), s.prop = p → s.left w = c → P s acc →
      ∃ n l, walkAll H w n s = .ok l ∧ Q (l.reverse ++ acc) := by
  intro p
  induction p using Nat.strongRecOn with
  | ind p ihp =>
    intro c
    induction c using Nat.strongRecOn with
    | ind c ihc =>
      intro s acc hp hc hP
      obtain ⟨s', r, e, d⟩ := walkStep_did sim (fit s acc hP).lt (fit s acc hP).table
      have go : ∀ acc', P s' acc' → (s'.prop < p ∨ s'.prop = p ∧ s'.left w < c) → ∃ n l, walkAll H w n s' = .ok l ∧ Q (l.reverse ++ acc') := by
        rintro acc' hP' (h | ⟨h1, h2⟩)
        · exact ihp _ h _ s' acc' rfl rfl hP'
        · exact ihc _ h2 s' acc' h1 rfl hP'
      have dec : r ≠ .done → s'.prop < p ∨ s'.prop = p ∧ s'.left w < c := by
        intro hr
        have slot : ∀ (u : Nat) (tb : Table K V) (ks : List K), s.table = some u → w.tables[u]? = some tb → s.index < tb.cap →
            s.prop = p ∧ Walk.left w ({ s with index := s.index + 1, keys := ks } : Walk K) < c := by
          intro u tb ks hu ht hi
          refine ⟨hp, ?_⟩
          rw [← hc]
          simp only [Walk.left, hu, ht]
          omega
        cases d with
        | over => exact absurd rfl hr
        | last => exact absurd rfl hr
        | up _ _ p' u hp' => exact .inl (by rw [← hp]; exact hp')
        | skip u tb hu ht hi => exact .inr (slot u tb s.keys hu ht hi)
        | seen u tb hu ht hi => exact .inr (slot u tb s.keys hu ht hi)
        | read u tb hu ht hi k => exact .inr (slot u tb _ hu ht hi)
      cases r with
      | more =>
        obtain ⟨n, l, h1, h2⟩ := go acc (more s acc s' hP d) (dec (by simp))
        exact ⟨n + 1, l, by rw [walkAll, e]; exact h1, h2⟩
      | item k v =>
        obtain ⟨n, l, h1, h2⟩ := go _ (item s acc s' k v hP d) (dec (by simp))
        exact ⟨n + 1, (k, v) :: l, by rw [walkAll, e]; simp only [h1]; rfl, by simpa using h2⟩
      | done => exact ⟨1, [], by rw [walkAll, e], done s acc s' hP d⟩

theorem Deep.fun {sp : List (SObj K V)} {k : K} {o : Nat} {r r' : Option V} (h : Deep sp k o r) (h' : Deep sp k o r') : r = r' := by
  induction h generalizing r' with
  | here h1 h2 =>
    cases h' with
    | here k1 k2 => rw [h1] at k1; cases k1; rw [← h2, ← k2]
    | up k1 k2 => rw [h1] at k1; cases k1; rw [h2] at k2; cases k2
    | stop k1 k2 => rw [h1] at k1; cases k1; rw [h2] at k2; cases k2
  | up h1 h2 h3 _ ih =>
    cases h' with
    | here k1 k2 => rw [h1] at k1; cases k1; rw [h2] at k2; cases k2
    | up k1 k2 k3 k4 => rw [h1] at k1; cases k1; rw [h3] at k3; cases k3; exact ih k4
    | stop k1 k2 k3 => rw [h1] at k1; cases k1; rw [h3] at k3; cases k3
  | stop h1 h2 h3 =>
    cases h' with
    | here k1 k2 => rw [h1] at k1; cases k1; rw [h2] at k2; cases k2
    | up k1 k2 k3 k4 => rw [h1] at k1; cases k1; rw [h3] at k3; cases k3
    | stop => rfl

/-- No table in use has a slot for `k` without a value. -/
def NoGap (w : World K V) (sp : List (SObj K V)) (k : K) : Prop :=
  ∀ (i : Nat) (ob : Object) (so : SObj K V) (u : Nat) (tb : Table K V) (j : Nat), w.objs[i]? = some ob → sp[i]? = some so → ob.table = some u → w.tables[u]? = some tb → j < tb.cap →
    (tb.items j).key = some k → so.map k ≠ none

structure DInv (w : World K V) (sp : List (SObj K V)) (o : Nat) (s : Walk K) (acc : List (K × V)) : Prop where
  deep : s.deep = true
  cur : ∃ ob, w.objs[s.prop]? = some ob ∧ ob.table = s.table
  up : ∀ k, k ∉ s.keys → ∀ r, Deep sp k s.prop r → Deep sp k o r
  past : ∀ k, k ∉ s.keys → ∀ u tb j, s.table = some u → w.tables[u]? = some tb → j < s.index → j < tb.cap → (tb.items j).key ≠ some k
  right : ∀ k v, (k, v) ∈ acc → Deep sp k o (some v)
  all : ∀ k ∈ s.keys, NoGap w sp k → ∃ v, (k, v) ∈ acc

/-- Above an object whose table is over. -/
theorem DInv.over {H : K → Nat} {w : World K V} {sp : List (SObj K V)} (sim : Sim H w sp) {o : Nat} {s : Walk K} {acc : List (K × V)}
    (h : DInv w sp o s acc) (hc : ∀ u tb, s.table = some u → w.tables[u]? = some tb → tb.cap ≤ s.index) (lt : s.prop < sp.length) {k : K}
    (hk : k ∉ s.keys) {r : Option V} (ha : Above sp k s.prop r) : Deep sp k o r := by
  obtain ⟨ob, so, h1, h2, h3, h4, h5, h6, h7⟩ := sim.get lt
  obtain ⟨ob', k1, k2⟩ := h.cur
  rw [h1] at k1; cases k1
  have hm : so.map k = none := by
    cases hb : ob.table with
    | none => rw [h6 hb]
    | some u =>
      obtain ⟨_, tb, h8, g, rp⟩ := h7 u hb
      cases hv : so.map k with
      | none => rfl
      | some v =>
        obtain ⟨j, h9, h10, _⟩ := (rp k v).mp hv
        rw [k2] at hb
        have := hc u tb hb h8
        exact absurd h10 (h.past k hk u tb j hb h8 (by omega) h9)
  apply h.up k hk
  obtain ⟨so', e1, ⟨e2, rfl⟩ | ⟨q, e2, e3⟩⟩ := ha
  · rw [h2] at e1; cases e1
    exact .stop h2 hm e2
  · rw [h2] at e1; cases e1
    exact .up h2 hm e2 e3

def DNext (w : World K V) (sp : List (SObj K V)) (o : Nat) (s' : Walk K) (acc : List (K × V)) : Turn K V → Prop
  | .more => DInv w sp o s' acc
  | .item k v => DInv w sp o s' ((k, v) :: acc)
  | .done => ∀ k v, NoGap w sp k → Deep sp k o (some v) → (k, v) ∈ acc

theorem DInv.step {H : K → Nat} {w : World K V} {sp : List (SObj K V)} (sim : Sim H w sp) {o : Nat} {s s' : Walk K} {acc : List (K × V)}
    (h : DInv w sp o s acc) (lt : s.prop < sp.length) {r : Turn K V} (d : Did w sp s s' r) : DNext w sp o s' acc r := by
  have next : ∀ u tb, s.table = some u → w.tables[u]? = some tb → ∀ ks : List K, (∀ k, k ∉ ks → k ∉ s.keys ∧ (tb.items s.index).key ≠ some k) →
      ∀ k, k ∉ ks → ∀ u tb j, s.table = some u → w.tables[u]? = some tb → j < s.index + 1 → j < tb.cap → (tb.items j).key ≠ some k := by
    intro u tb hu ht ks hks k hk u' tb' j e1 e2 e3 e4
    rw [hu] at e1; cases e1
    rw [ht] at e2; cases e2
    by_cases e : j = s.index
    · subst e; exact (hks k hk).2
    · exact h.past k (hks k hk).1 u tb j hu ht (by omega) e4
  cases d with
  | over hc hd => rw [h.deep] at hd; cases hd
  | last hc hd p hp hch ha =>
    intro k v hg hdp
    by_cases hk : k ∈ s.keys
    · obtain ⟨v', hv⟩ := h.all k hk hg
      have := Deep.fun (h.right k v' hv) hdp
      cases this; exact hv
    · have := Deep.fun (h.over sim hc lt hk (ha k)) hdp
      cases this
  | up hc hd p u hp hch ht ha =>
    exact ⟨h.deep, ht, fun k hk r hr => h.over sim hc lt hk (ha k r hr), by simp, h.right, h.all⟩
  | skip u tb hu ht hi hk =>
    exact ⟨h.deep, h.cur, h.up, next u tb hu ht s.keys (fun k h => ⟨h, by rw [hk]; simp⟩), h.right, h.all⟩
  | seen u tb hu ht hi hd k0 hk hm =>
    exact ⟨h.deep, h.cur, h.up, next u tb hu ht s.keys (fun k h => ⟨h, by rw [hk]; rintro ⟨⟩; exact h hm⟩), h.right, h.all⟩
  | read u tb hu ht hi k0 hk hm so hs =>
    have hp : ∀ acc', (∀ k v, (k, v) ∈ acc' → Deep sp k o (some v)) → (∀ k ∈ k0 :: s.keys, NoGap w sp k → ∃ v, (k, v) ∈ acc') →
        DInv w sp o { s with index := s.index + 1, keys := if s.deep then k0 :: s.keys else s.keys } acc' := by
      intro acc' h1 h2
      have e : (if s.deep then k0 :: s.keys else s.keys) = k0 :: s.keys := by rw [h.deep]; rfl
      rw [e]
      refine ⟨h.deep, h.cur, fun k hk r hr => h.up k (fun x => hk (List.mem_cons_of_mem _ x)) r hr, ?_, h1, h2⟩
      refine next u tb hu ht (k0 :: s.keys) (fun k hx => ⟨fun x => hx (List.mem_cons_of_mem _ x), ?_⟩)
      rw [hk]; rintro ⟨⟩; exact hx List.mem_cons_self
    cases hv : so.map k0 with
    | none =>
      refine hp acc h.right (fun k hkk hg => ?_)
      rcases List.mem_cons.mp hkk with rfl | hkk
      · obtain ⟨ob, c1, c2⟩ := h.cur
        exact absurd hv (hg s.prop ob so u tb s.index c1 hs (by rw [c2, hu]) ht hi hk)
      · exact h.all k hkk hg
    | some v =>
      refine hp ((k0, v) :: acc) (fun k v' hkk => ?_) (fun k hkk hg => ?_)
      · rcases List.mem_cons.mp hkk with e | hkk
        · cases e
          exact h.up k0 (hm h.deep) _ (.here hs hv)
        · exact h.right k v' hkk
      · rcases List.mem_cons.mp hkk with rfl | hkk
        · exact ⟨v, List.mem_cons_self⟩
        · obtain ⟨v', hv'⟩ := h.all k hkk hg
          exact ⟨v', List.mem_cons_of_mem _ hv'⟩

theorem Inv.fit {w : World K V} {sp : List (SObj K V)} {s : Walk K} {t : Track K} (h : Inv w sp s t) : Fit w sp s := ⟨h.lt, h.table⟩

/-- An iteration over properties of the object and its prototypes. -/
theorem walk_deep {H : K → Nat} {w : World K V} {sp : List (SObj K V)} (sim : Sim H w sp) {o : Nat} (ho : o < sp.length) :
    ∃ s n l, newWalk w o true = .ok s ∧ (∀ m, n ≤ m → walkAll H w m s = .ok l) ∧ (l.map Prod.fst).Nodup ∧
      (∀ k v, (k, v) ∈ l → Deep sp k o (some v)) ∧ ∀ k v, NoGap w sp k → Deep sp k o (some v) → (k, v) ∈ l := by
  obtain ⟨s, so, e, hs, hp, hks, hi, hd, hcur, hinv⟩ := newWalk_inv sim ho true
  let P : Walk K → List (K × V) → Prop := fun s acc =>
    Inv w sp s ⟨o, true, fun k => so.map k ≠ none, acc.map Prod.fst⟩ ∧ (acc.map Prod.fst).Nodup ∧ DInv w sp o s acc
  let Q : List (K × V) → Prop := fun acc => (acc.map Prod.fst).Nodup ∧ (∀ k v, (k, v) ∈ acc → Deep sp k o (some v)) ∧
    ∀ k v, NoGap w sp k → Deep sp k o (some v) → (k, v) ∈ acc
  have hP : P s [] := by
    refine ⟨hinv, by simp, hd, by rw [hp]; exact hcur, ?_, ?_, by simp, by simp [hks]⟩
    · intro k _ r hr; rw [hp] at hr; exact hr
    · intro k _ u tb j _ _ hj; rw [hi] at hj; omega
  obtain ⟨n, l, h1, h2, h3, h4⟩ := walk_ends sim P Q (fun s acc h => h.1.fit)
    (fun s acc s' h d => ⟨(h.1.step sim d).2, h.2.1, h.2.2.step sim h.1.lt d⟩)
    (fun s acc s' k v h d => ⟨(h.1.step sim d).2, by
      simp only [List.map_cons, List.nodup_cons]; exact ⟨(h.1.step sim d).1.1, h.2.1⟩, h.2.2.step sim h.1.lt d⟩)
    (fun s acc s' h d => ⟨h.2.1, h.2.2.right, h.2.2.step sim h.1.lt d⟩) _ _ s [] rfl rfl hP
  simp only [List.append_nil, List.map_reverse, List.mem_reverse] at h2 h3 h4
  exact ⟨s, n, l, e, fun m hm => walkAll_more n s l h1 m hm, (List.pairwise_reverse.mp h2).imp Ne.symm, h3, h4⟩

/-- An iteration over properties of the object alone. -/
theorem walk_shallow {H : K → Nat} {w : World K V} {sp : List (SObj K V)} (sim : Sim H w sp) {o : Nat} {so : SObj K V} (ho : sp[o]? = some so) :
    ∃ s n l, newWalk w o false = .ok s ∧ (∀ m, n ≤ m → walkAll H w m s = .ok l) ∧ (l.map Prod.fst).Nodup ∧
      ∀ k v, (k, v) ∈ l ↔ so.map k = some v := by
  obtain ⟨s, so', e, hs, hp, hks, hi, hd, hcur, hinv⟩ := newWalk_inv sim (List.getElem?_eq_some_iff.mp ho).1 false
  rw [ho] at hs; cases hs
  let P : Walk K → List (K × V) → Prop := fun s acc =>
    Inv w sp s ⟨o, false, fun k => so.map k ≠ none, acc.map Prod.fst⟩ ∧ (acc.map Prod.fst).Nodup ∧ ∀ k v, (k, v) ∈ acc → so.map k = some v
  let Q : List (K × V) → Prop := fun acc => (acc.map Prod.fst).Nodup ∧ ∀ k v, (k, v) ∈ acc ↔ so.map k = some v
  obtain ⟨n, l, h1, h2, h3⟩ := walk_ends sim P Q (fun s acc h => h.1.fit)
    (fun s acc s' h d => ⟨(h.1.step sim d).2, h.2⟩)
    (fun s acc s' k v h d => ⟨(h.1.step sim d).2, by
      simp only [List.map_cons, List.nodup_cons]; exact ⟨(h.1.step sim d).1.1, h.2.1⟩, by
      intro k' v' hm
      rcases List.mem_cons.mp hm with x | hm
      · cases x
        obtain ⟨_, p, so2, _, h5, h6, h7⟩ := (h.1.step sim d).1
        rw [h5 rfl, ho] at h6; cases h6
        exact h7
      · exact h.2.2 k' v' hm⟩)
    (fun s acc s' h d => ⟨h.2.1, fun k v => ⟨h.2.2 k v, fun hk => by
      have := (h.1.step sim d).1 k (by simp [hk])
      obtain ⟨⟨k', v'⟩, h8, h9⟩ := List.mem_map.mp this
      simp only at h9
      subst h9
      have := h.2.2 k' v' h8
      rw [hk] at this; cases this
      exact h8⟩⟩) _ _ s [] rfl rfl ⟨hinv, by simp, by simp⟩
  simp only [List.append_nil, List.map_reverse, List.mem_reverse] at h2 h3
  exact ⟨s, n, l, e, fun m hm => walkAll_more n s l h1 m hm, (List.pairwise_reverse.mp h2).imp Ne.symm, h3⟩

end Verif.Obj
