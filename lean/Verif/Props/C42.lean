import Verif.Lib.Iter

/-
C42: iter.iproduct enumerates the Cartesian product once.
-/
namespace Verif.Iter

variable {α : Type}

/-- Specification: the digits of `k` to the bases `ns`, the first of which changes fastest. -/
def digits : List Nat → Nat → List Nat
  | [], _ => []
  | n :: ns, k => k % n :: digits ns (k / n)

def count : List Nat → Nat
  | [] => 1
  | n :: ns => n * count ns

/-- A tuple of indices below the bounds. -/
def Below : List Nat → List Nat → Prop
  | [], [] => True
  | t :: ts, n :: ns => t < n ∧ Below ts ns
  | _, _ => False

/-- All tuples in order. -/
def indices (ns : List Nat) : List (List Nat) := (List.range (count ns)).map (digits ns)

/-- The full claim for `iproduct` with two dimensions or more. -/
def C42_full : Prop := ∀ (args : List Int), 2 ≤ args.length → ∀ n, count (args.map Int.toNat) ≤ n →
  iproduct n args = some ((indices (args.map Int.toNat)).map fun t => .many (t.map Int.ofNat))

/-- The number of a tuple. -/
def number : List Nat → List Nat → Nat
  | n :: ns, t :: ts => t + n * number ns ts
  | _, _ => 0

theorem number_digits (ns : List Nat) (k : Nat) (h : k < count ns) : number ns (digits ns k) = k := by
  induction ns generalizing k with
  | nil => simp only [count] at h; simp only [number]; omega
  | cons n ns ih =>
    simp only [count] at h
    simp only [digits, number]
    have hn : 0 < n := Nat.pos_of_ne_zero fun e => by subst e; simp at h
    rw [ih (k / n) (Nat.div_lt_of_lt_mul h)]
    exact Nat.mod_add_div k n

theorem digits_below (ns : List Nat) (k : Nat) (h : k < count ns) : Below (digits ns k) ns := by
  induction ns generalizing k with
  | nil => exact trivial
  | cons n ns ih =>
    simp only [count] at h
    have hn : 0 < n := Nat.pos_of_ne_zero fun e => by subst e; simp at h
    exact ⟨Nat.mod_lt _ hn, ih (k / n) (Nat.div_lt_of_lt_mul h)⟩

theorem digits_number (ns t : List Nat) (h : Below t ns) : number ns t < count ns ∧ digits ns (number ns t) = t := by
  induction ns generalizing t with
  | nil =>
    cases t with
    | nil => exact ⟨by simp [number, count], rfl⟩
    | cons => exact h.elim
  | cons n ns ih =>
    cases t with
    | nil => exact h.elim
    | cons x t =>
      obtain ⟨h1, h2⟩ := h
      obtain ⟨i1, i2⟩ := ih t h2
      simp only [number, count, digits]
      rw [Nat.add_mul_mod_self_left, Nat.mod_eq_of_lt h1, Nat.add_mul_div_left _ _ (by omega), Nat.div_eq_of_lt h1, Nat.zero_add, i2]
      refine ⟨?_, rfl⟩
      have := Nat.mul_le_mul_left n (show number ns t + 1 ≤ count ns by omega)
      rw [Nat.mul_add] at this
      omega

/-- The tuples in order are exactly those below the bounds, each of them once. -/
theorem C42_once (ns : List Nat) : (∀ t, t ∈ indices ns ↔ Below t ns) ∧ (indices ns).Nodup ∧ (indices ns).length = count ns := by
  refine ⟨fun t => ?_, ?_, by simp [indices]⟩
  · simp only [indices, List.mem_map, List.mem_range]
    constructor
    · rintro ⟨k, hk, rfl⟩
      exact digits_below ns k hk
    · intro h
      exact ⟨number ns t, digits_number ns t h⟩
  · unfold indices
    rw [List.nodup_iff_pairwise_ne, List.pairwise_map]
    refine List.Pairwise.imp_of_mem ?_ (List.nodup_iff_pairwise_ne.1 List.nodup_range)
    intro a b ha hb hne he
    have := congrArg (number ns) he
    rw [number_digits ns a (by simpa using ha), number_digits ns b (by simpa using hb)] at this
    exact hne this

theorem succ_divmod (k n : Nat) (hn : 0 < n) : (k % n + 1 < n ∧ (k + 1) % n = k % n + 1 ∧ (k + 1) / n = k / n) ∨ (k % n + 1 = n ∧ (k + 1) % n = 0 ∧ (k + 1) / n = k / n + 1) := by
  have h1 := Nat.mod_lt k hn
  have h2 := Nat.mod_add_div k n
  generalize k % n = r at *
  generalize k / n = q at *
  rcases Nat.lt_or_ge (r + 1) n with h | h
  · left
    have e : k + 1 = r + 1 + n * q := by omega
    rw [e, Nat.add_mul_mod_self_left, Nat.mod_eq_of_lt h, Nat.add_mul_div_left _ _ hn, Nat.div_eq_of_lt h]
    exact ⟨h, rfl, by omega⟩
  · right
    have e : k + 1 = 0 + n * (q + 1) := by rw [Nat.mul_add]; omega
    rw [e, Nat.add_mul_mod_self_left, Nat.zero_mod, Nat.add_mul_div_left _ _ hn, Nat.zero_div]
    exact ⟨by omega, rfl, by omega⟩

theorem advance_digits (ns : List Nat) (hn : ∀ n ∈ ns, 0 < n) (k : Nat) (hk : k < count ns) :
    advance (ns.map Int.ofNat) ((digits ns k).map Int.ofNat) = if k + 1 < count ns then some ((digits ns (k + 1)).map Int.ofNat) else none := by
  induction ns generalizing k with
  | nil =>
    rw [if_neg (by simp only [count]; omega)]
    rfl
  | cons n ns ih =>
    simp only [count] at hk ⊢
    have hn0 : 0 < n := hn n (by simp)
    have hd := Nat.div_lt_of_lt_mul hk
    have hi := ih (fun m hm => hn m (by simp [hm])) (k / n) hd
    simp only [digits, List.map_cons, advance]
    rcases succ_divmod k n hn0 with ⟨a1, a2, a3⟩ | ⟨a1, a2, a3⟩
    · rw [if_neg (by simp only [Int.ofNat_eq_natCast]; omega), a2, a3]
      have : k + 1 < n * count ns := by
        have h1 := Nat.mod_add_div k n
        have h2 := Nat.mul_le_mul_left n (show k / n + 1 ≤ count ns by omega)
        rw [Nat.mul_add] at h2
        omega
      rw [if_pos this]
      rfl
    · rw [if_pos (by simp only [Int.ofNat_eq_natCast]; omega), hi, a2, a3]
      have hiff : k / n + 1 < count ns ↔ k + 1 < n * count ns := by
        have e : k + 1 = n * (k / n + 1) := by
          have h1 := Nat.mod_add_div k n
          rw [Nat.mul_add]; omega
        rw [e]
        exact (Nat.mul_lt_mul_left hn0).symm
      by_cases h : k / n + 1 < count ns
      · rw [if_pos h, if_pos (hiff.1 h)]; rfl
      · rw [if_neg h, if_neg fun c => h (hiff.2 c)]; rfl

theorem run_digits (ns : List Nat) (hn : ∀ n ∈ ns, 0 < n) (m k n : Nat) (hk : k + (m + 1) = count ns) (hm : m < n) :
    run (ns.map Int.ofNat) n ((digits ns k).map Int.ofNat) = some ((List.range' k (m + 1)).map fun k => (digits ns k).map Int.ofNat) := by
  induction m generalizing k n with
  | zero =>
    cases n with
    | zero => omega
    | succ n => rw [run, advance_digits ns hn k (by omega), if_neg (by omega)]; rfl
  | succ m ih =>
    cases n with
    | zero => omega
    | succ n =>
      rw [run, advance_digits ns hn k (by omega), if_pos (by omega)]
      simp only
      rw [ih (k + 1) n (by omega) (by omega), List.range'_succ (n := m + 1)]
      rfl

theorem count_pos (ns : List Nat) (h : ∀ n ∈ ns, 0 < n) : 0 < count ns := by
  induction ns with
  | nil => exact Nat.one_pos
  | cons n ns ih => exact Nat.mul_pos (h n (by simp)) (ih fun m hm => h m (by simp [hm]))

theorem count_zero (ns : List Nat) (h : 0 ∈ ns) : count ns = 0 := by
  induction ns with
  | nil => cases h
  | cons n ns ih =>
    rcases List.mem_cons.1 h with h | h
    · simp [count, ← h]
    · simp [count, ih h]

theorem digits_zero (ns : List Nat) : digits ns 0 = ns.map fun _ => 0 := by
  induction ns with
  | nil => rfl
  | cons n ns ih => simp [digits, ih]

/-- **C42**, `iproduct`: it yields all tuples in order and then ends.  Bounds which are not positive are like 0. -/
theorem C42 : C42_full := by
  intro args hl n hn
  have key : iproduct n args = if args.any (· ≤ 0) then some [] else (run args n (args.map fun _ => 0)).map (·.map .many) := by
    match args, hl with
    | _ :: _ :: _, _ => rfl
  rw [key]
  by_cases h : args.any (· ≤ 0) = true
  · rw [if_pos h]
    have h0 : (0 : Nat) ∈ args.map Int.toNat := by
      obtain ⟨a, ha, h⟩ := List.any_eq_true.1 h
      exact List.mem_map.2 ⟨a, ha, by have : a ≤ 0 := by simpa using h
                                      omega⟩
    simp [indices, count_zero _ h0]
  · rw [if_neg h]
    have hpos : ∀ a ∈ args, 0 < a := by
      intro a ha
      refine Int.not_le.1 fun hle => h (List.any_eq_true.2 ⟨a, ha, by simpa using hle⟩)
    have hp : ∀ n ∈ args.map Int.toNat, 0 < n := by
      intro m hm
      obtain ⟨a, ha, rfl⟩ := List.mem_map.1 hm
      have := hpos a ha
      omega
    have ea : (args.map Int.toNat).map Int.ofNat = args := by
      rw [List.map_map]
      conv => rhs; rw [← List.map_id args]
      exact List.map_congr_left fun a ha => by have := hpos a ha; simp only [Function.comp, id, Int.ofNat_eq_natCast]; omega
    have hc := count_pos _ hp
    have e0 : (args.map fun _ => (0 : Int)) = (digits (args.map Int.toNat) 0).map Int.ofNat := by rw [digits_zero]; simp [Function.comp_def]
    have hr := run_digits (args.map Int.toNat) hp (count (args.map Int.toNat) - 1) 0 n (by omega) (by omega)
    rw [ea, ← e0, show count (args.map Int.toNat) - 1 + 1 = count (args.map Int.toNat) by omega, ← List.range_eq_range'] at hr
    rw [hr]
    simp [indices, Function.comp_def]

/-- One dimension, and none. -/
theorem C42_small (n : Nat) (num : Int) : iproduct n [num] = some ((List.range num.toNat).map fun i => .one i) ∧ iproduct n [] = some [] := by
  refine ⟨?_, rfl⟩
  simp [iproduct, range, Function.comp_def]

/- product -/

/-- Elements of an argument. -/
def Src.vals : Src α → List α
  | .fixed l => l
  | .once left cache i => if i then cache else left

/-- The cache is empty before the first use. -/
def Src.Ok : Src α → Prop
  | .fixed _ => True
  | .once _ cache i => i = false → cache = []

theorem Src.Fresh.ok {g : Src α} (h : g.Fresh) : g.Ok := by
  cases g with
  | fixed => trivial
  | once l c i => exact fun _ => h.1

theorem pass_spec (g : Src α) (h : g.Ok) : (pass g).1 = g.vals ∧ (pass g).2.vals = g.vals ∧ (pass g).2.Ok := by
  cases g with
  | fixed l => exact ⟨rfl, rfl, trivial⟩
  | once l c i =>
    cases i with
    | true => exact ⟨rfl, rfl, h⟩
    | false =>
      have : c = [] := h rfl
      subst this
      refine ⟨rfl, ?_, ?_⟩
      · simp [pass, Src.vals]
      · simp [pass, Src.Ok]

/-- Combinations of elements, the last list first. -/
def combos : List (List α) → List (List α)
  | [] => [[]]
  | r :: rs => r.flatMap fun e => (combos rs).map (· ++ [e])

theorem combos_length (rs : List (List α)) (t : List α) (h : t ∈ combos rs) : t.length = rs.length := by
  induction rs generalizing t with
  | nil => simp only [combos, List.mem_singleton] at h; subst h; rfl
  | cons r rs ih =>
    simp only [combos, List.mem_flatMap, List.mem_map] at h
    obtain ⟨e, -, t', ht, rfl⟩ := h
    simp [ih t' ht]

/-- The first elements of an array. -/
def padded (dim : Nat) (t : List α) : List (Option α) := t.map some ++ List.replicate (dim - t.length) none

theorem padded_set (dim : Nat) (t : List α) (e : α) (h : t.length < dim) : (padded dim t).set t.length (some e) = padded dim (t ++ [e]) := by
  unfold padded
  rw [List.set_append_right _ _ (by simp), List.length_map, Nat.sub_self]
  obtain ⟨m, hm⟩ : ∃ m, dim - t.length = m + 1 := ⟨dim - t.length - 1, by omega⟩
  rw [hm, List.replicate_succ, List.set_cons_zero]
  simp only [List.map_append, List.map_cons, List.map_nil, List.length_append, List.length_cons, List.length_nil, List.append_assoc, List.cons_append, List.nil_append]
  rw [show dim - (t.length + (0 + 1)) = m by omega]

theorem each_spec (dim : Nat) (inner : List (Src α) → List (List (Option α)) × List (Src α)) (rs : List (List α)) (hd : rs.length < dim)
    (hin : ∀ gs : List (Src α), gs.map Src.vals = rs → (∀ g ∈ gs, g.Ok) →
      (inner gs).1 = (combos rs).map (padded dim) ∧ (inner gs).2.map Src.vals = rs ∧ ∀ g ∈ (inner gs).2, g.Ok)
    (es : List α) (gs : List (Src α)) (h : gs.map Src.vals = rs) (hok : ∀ g ∈ gs, g.Ok) :
    (each rs.length inner es gs).1 = (es.flatMap fun e => (combos rs).map (· ++ [e])).map (padded dim) ∧
    (each rs.length inner es gs).2.map Src.vals = rs ∧ ∀ g ∈ (each rs.length inner es gs).2, g.Ok := by
  induction es generalizing gs with
  | nil => exact ⟨rfl, h, hok⟩
  | cons e es ih =>
    obtain ⟨h1, h2, h3⟩ := hin gs h hok
    obtain ⟨i1, i2, i3⟩ := ih _ h2 h3
    refine ⟨?_, i2, i3⟩
    simp only [each, List.flatMap_cons, List.map_append]
    rw [h1, i1]
    congr 1
    rw [List.map_map, List.map_map]
    refine List.map_congr_left fun t ht => ?_
    have hl := combos_length rs t ht
    simp only [Function.comp]
    rw [← hl]
    exact padded_set dim t e (by omega)

theorem productFrom_spec (dim n : Nat) (hn : n + 1 ≤ dim) (gs : List (Src α)) (hl : gs.length = n + 1) (hok : ∀ g ∈ gs, g.Ok) :
    (productFrom dim (n + 1) gs).1 = (combos (gs.map Src.vals)).map (padded dim) ∧ (productFrom dim (n + 1) gs).2.map Src.vals = gs.map Src.vals ∧
    ∀ g ∈ (productFrom dim (n + 1) gs).2, g.Ok := by
  induction n generalizing gs with
  | zero =>
    match gs, hl with
    | [g], _ =>
      obtain ⟨p1, p2, p3⟩ := pass_spec g (hok g (by simp))
      have e : productFrom dim (0 + 1) [g] = ((pass g).1.map fun e => (List.replicate dim none).set 0 (some e), [(pass g).2]) := rfl
      rw [e]
      refine ⟨?_, by simp [p2], by simpa using p3⟩
      simp only [p1, combos, List.map_cons, List.map_nil, List.nil_append, List.map_flatMap]
      rw [← List.map_eq_flatMap]
      refine List.map_congr_left fun e _ => ?_
      have := padded_set dim [] e (by simp; omega)
      simpa [padded] using this
  | succ n ih =>
    match gs, hl with
    | g :: gs, hl =>
      simp only [List.length_cons, Nat.add_right_cancel_iff] at hl
      obtain ⟨p1, p2, p3⟩ := pass_spec g (hok g (by simp))
      have e : productFrom dim (n + 1 + 1) (g :: gs) = ((each (n + 1) (productFrom dim (n + 1)) (pass g).1 gs).1, (pass g).2 :: (each (n + 1) (productFrom dim (n + 1)) (pass g).1 gs).2) := rfl
      have hlen : (gs.map Src.vals).length = n + 1 := by simp [hl]
      obtain ⟨h1, h2, h3⟩ := each_spec dim (productFrom dim (n + 1)) (gs.map Src.vals) (by omega)
        (fun gs' hg ho => by
          have hl' : gs'.length = n + 1 := by rw [← hlen, ← hg, List.length_map]
          have := ih (by omega) gs' hl' ho
          rw [hg] at this
          exact this)
        (pass g).1 gs rfl (fun g' hg' => hok g' (by simp [hg']))
      rw [hlen] at h1 h2 h3
      rw [e]
      refine ⟨?_, ?_, ?_⟩
      · rw [p1] at h1 ⊢
        exact h1
      · simp only [List.map_cons, p2, h2]
      · intro g' hg'
        rcases List.mem_cons.1 hg' with rfl | hg'
        · exact p3
        · exact h3 g' hg'

/-- Elements with given indices. -/
def pick : List (List α) → List Nat → List (Option α)
  | r :: rs, i :: is => r[i]? :: pick rs is
  | _, _ => []

theorem range_mul (n m : Nat) {β : Type} (f : Nat → β) : (List.range (n * m)).map f = (List.range m).flatMap fun q => (List.range n).map fun s => f (s + n * q) := by
  induction m with
  | zero => simp
  | succ m ih =>
    rw [Nat.mul_succ, List.range_add, List.map_append, ih, List.range_succ, List.flatMap_append]
    simp [Function.comp_def, Nat.add_comm]

theorem count_append (a : List Nat) (b : Nat) : count (a ++ [b]) = count a * b := by
  induction a with
  | nil => simp [count]
  | cons n a ih => simp only [List.cons_append, count, ih, Nat.mul_assoc]

theorem digits_append (ns : List Nat) (n k q : Nat) (hk : k < count ns) (hq : q < n) : digits (ns ++ [n]) (k + count ns * q) = digits ns k ++ [q] := by
  induction ns generalizing k with
  | nil =>
    simp only [count] at hk
    have : k = 0 := by omega
    subst this
    simp [digits, count, Nat.mod_eq_of_lt hq]
  | cons m ns ih =>
    simp only [count] at hk
    have hm : 0 < m := Nat.pos_of_ne_zero fun e => by subst e; simp at hk
    simp only [List.cons_append, digits, count]
    rw [Nat.mul_assoc, Nat.add_mul_mod_self_left, Nat.add_mul_div_left _ _ hm, ih (k / m) (Nat.div_lt_of_lt_mul hk)]

theorem pick_append (rs : List (List α)) (r : List α) (is : List Nat) (i : Nat) (h : is.length = rs.length) : pick (rs ++ [r]) (is ++ [i]) = pick rs is ++ [r[i]?] := by
  induction rs generalizing is with
  | nil => have := List.eq_nil_of_length_eq_zero h; subst this; rfl
  | cons x rs ih =>
    cases is with
    | nil => simp at h
    | cons j is => simp only [List.cons_append, pick, ih is (by simpa using h)]

theorem digits_length (ns : List Nat) (k : Nat) : (digits ns k).length = ns.length := by
  induction ns generalizing k with
  | nil => rfl
  | cons n ns ih => simp [digits, ih]

theorem flatMap_range (r : List α) {β : Type} (f : Option α → List β) : (List.range r.length).flatMap (fun i => f r[i]?) = r.flatMap fun e => f (some e) := by
  induction r with
  | nil => rfl
  | cons x r ih =>
    rw [List.length_cons, List.range_succ_eq_map, List.flatMap_cons, List.flatMap_map, List.flatMap_cons]
    simp only [List.getElem?_cons_zero, List.getElem?_cons_succ]
    rw [ih]

theorem flatMap_congr' {β : Type} {f g : α → List β} {l : List α} (h : ∀ a ∈ l, f a = g a) : l.flatMap f = l.flatMap g := by
  induction l with
  | nil => rfl
  | cons a l ih => rw [List.flatMap_cons, List.flatMap_cons, h a (by simp), ih fun b hb => h b (by simp [hb])]

theorem combos_indices (rs : List (List α)) : (combos rs.reverse).map (·.map some) = (indices (rs.map List.length)).map (pick rs) := by
  have key : ∀ ls : List (List α), (combos ls).map (·.map some) = (indices (ls.reverse.map List.length)).map (pick ls.reverse) := by
    intro ls
    induction ls with
    | nil => rfl
    | cons r ls ih =>
      simp only [combos, List.reverse_cons, List.map_append, List.map_cons, List.map_nil, indices, count_append]
      rw [List.map_map, range_mul]
      have e1 : ∀ q ∈ List.range r.length, (List.range (count (ls.reverse.map List.length))).map (fun s => (pick (ls.reverse ++ [r]) ∘ digits (ls.reverse.map List.length ++ [r.length])) (s + count (ls.reverse.map List.length) * q)) =
          ((combos ls).map (·.map some)).map (· ++ [r[q]?]) := by
        intro q hq
        rw [ih, indices, List.map_map, List.map_map]
        refine List.map_congr_left fun k hk => ?_
        simp only [Function.comp]
        rw [digits_append _ _ _ _ (by simpa using hk) (by simpa using hq), pick_append _ _ _ _ (by simp [digits_length])]
      rw [flatMap_congr' e1]
      rw [flatMap_range r fun o => ((combos ls).map (·.map some)).map (· ++ [o])]
      rw [List.map_flatMap]
      refine flatMap_congr' fun e _ => ?_
      simp only [List.map_map, Function.comp_def, List.map_append, List.map_cons, List.map_nil]
  have := key rs.reverse
  rw [List.reverse_reverse] at this
  exact this

/-- **C42**, `product`: it yields the tuples of elements which correspond to the tuples of indices, in the same order. -/
theorem C42_product (args : List (Src α)) (hl : 2 ≤ args.length) (hf : ∀ g ∈ args, g.Fresh) :
    product args = (indices (args.map fun g => g.vals.length)).map (pick (args.map Src.vals)) := by
  obtain ⟨n, hn⟩ : ∃ n, args.length = n + 1 := ⟨args.length - 1, by omega⟩
  have h := (productFrom_spec args.length n (by omega) args.reverse (by simp [hn]) (fun g hg => (hf g (by simpa using hg)).ok)).1
  rw [← hn] at h
  have e2 := combos_indices (args.map Src.vals)
  rw [List.map_map] at e2
  rw [show (args.map fun g => g.vals.length) = args.map (List.length ∘ Src.vals) from rfl, ← e2]
  unfold product
  rw [h, List.map_reverse]
  refine List.map_congr_left fun t ht => ?_
  have hl := combos_length _ t ht
  simp only [List.length_reverse, List.length_map] at hl
  simp [padded, hl]

example : iproduct 10 [2, 3] = some [.many [0, 0], .many [1, 0], .many [0, 1], .many [1, 1], .many [0, 2], .many [1, 2]] := by decide

example : product [.once [5, 6] [] false, .once [10, 20, 30] [] false] =
    [[some 5, some 10], [some 6, some 10], [some 5, some 20], [some 6, some 20], [some 5, some 30], [some 6, some 30]] := by decide

/-- Arguments which are not positive. -/
example : iproduct 0 [2, -1] = some [] := by decide

end Verif.Iter
