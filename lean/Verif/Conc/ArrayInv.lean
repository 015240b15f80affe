import Verif.Conc.Array

/-!
Invariant of the storage of arrays when only one thread at a time changes the size and the size is not made smaller.
-/
namespace Verif.Conc

/-- Contents of element `i`: the slot in the current buffer, or in the next one if it has been moved there. -/
def cell (s : Mem) (i : Nat) : Slot := if s.mem s.data i = .closed then s.mem (s.data + 1) i else s.mem s.data i

def ofList (l : List Nat) (i : Nat) : Slot :=
  match l[i]? with
  | some v => .val v
  | none => .tomb

theorem ofList_lt {l : List Nat} {i : Nat} (h : i < l.length) : ofList l i = .val l[i] := by
  simp [ofList, h]

theorem ofList_ge {l : List Nat} {i : Nat} (h : l.length ≤ i) : ofList l i = .tomb := by
  simp [ofList, h]

theorem ofList_val {l : List Nat} {i v : Nat} (h : ofList l i = .val v) : l[i]? = some v := by
  unfold ofList at h
  split at h
  · next hx => rw [hx]; simp at h; rw [h]
  · simp at h

theorem ofList_tomb {l : List Nat} {i : Nat} (h : ofList l i = .tomb) : l.length ≤ i := by
  unfold ofList at h
  split at h
  · simp at h
  · next hx => simpa using hx

theorem ofList_ne_closed (l : List Nat) (i : Nat) : ofList l i ≠ .closed := by
  unfold ofList
  split <;> simp

def sumTo (f : Nat → Nat) : Nat → Nat
  | 0 => 0
  | n + 1 => sumTo f n + f n

theorem sumTo_congr {f g : Nat → Nat} {n : Nat} (h : ∀ i, i < n → f i = g i) : sumTo f n = sumTo g n := by
  induction n with
  | zero => rfl
  | succ n ih => simp only [sumTo]; rw [ih (fun i hi => h i (by omega)), h n (by omega)]

theorem sumTo_upd (f : Nat → Nat) (n t x : Nat) (h : t < n) : sumTo (upd f t x) n + f t = sumTo f n + x := by
  induction n with
  | zero => omega
  | succ n ih =>
    simp only [sumTo]
    by_cases ht : t = n
    · subst ht
      have : sumTo (upd f t x) t = sumTo f t := sumTo_congr (fun i hi => by simp [upd]; omega)
      rw [this]; simp [upd]; omega
    · have := ih (by omega)
      have hn : upd f t x n = f n := by simp [upd]; omega
      rw [hn]; omega

theorem sumTo_zero {f : Nat → Nat} {n : Nat} (h : sumTo f n = 0) : ∀ i, i < n → f i = 0 := by
  induction n with
  | zero => intro i hi; omega
  | succ n ih =>
    simp only [sumTo] at h
    intro i hi
    by_cases hn : i = n
    · subst hn; omega
    · exact ih (by omega) i (by omega)

theorem sumTo_const_zero (n : Nat) : sumTo (fun _ => 0) n = 0 := by
  induction n with
  | zero => rfl
  | succ n ih => simp [sumTo, ih]

theorem sumTo_const_one (n : Nat) : sumTo (fun _ => 1) n = n := by
  induction n with
  | zero => rfl
  | succ n ih => simp [sumTo, ih]

def unclosed (s : Mem) (k : Nat) : Nat := sumTo (fun i => if s.mem k i = .closed then 0 else 1) (s.cap k)

/-- The thread has closed a slot of buffer `k` but not yet counted it. -/
def pend (k : Nat) : Local → Nat
  | .copy _ k' (.dec _) => if k' = k then 1 else 0
  | _ => 0

/-- The thread has written `v` into slot `i` of buffer `k + 1` and not yet closed the slot of buffer `k`. -/
inductive Owns : Local → Nat → Nat → Nat → Prop
  | rd (c : Cont) (k i v : Nat) : Owns (.copy c k (.rd i (.val v))) k i v
  | wr (c : Cont) (k i v : Nat) (x : Slot) : Owns (.copy c k (.wr i (.val v) x)) k i v
  | cl (c : Cont) (k i v : Nat) : Owns (.copy c k (.cl i (.val v))) k i v

def Op.isPush : Op → Bool
  | .push _ _ => true
  | _ => false

/-- The thread is changing the size of the array. -/
def grower : Local → Bool
  | .acc o _ => o.isPush
  | .next o _ => o.isPush
  | .swap o _ _ => o.isPush
  | .copy (.grow _ _) _ _ => true
  | .grow _ _ => true
  | _ => false

/-- The shared memory. -/
structure Sh (s : Mem) (l : List Nat) : Prop where
  dl : s.data ≤ s.last
  ld : s.last ≤ s.data + 1
  caps : ∀ k, k < s.last → s.cap k ≤ s.cap (k + 1)
  pos : ∀ k, 0 < k → k ≤ s.last → 0 < s.cap k
  past : ∀ k i, k < s.data → i < s.cap k → s.mem k i = .closed
  front : ∀ i, s.mem s.last i ≠ .closed
  free : ∀ k i, s.last < k → s.mem k i = .tomb
  outside : ∀ i, s.cap s.data ≤ i → s.mem s.data i = .tomb ∧ s.mem (s.data + 1) i = .tomb
  size : s.size ≤ s.cap s.data
  len : l.length ≤ s.size
  empty : ∀ i, s.mem s.data i = .tomb → s.mem (s.data + 1) i = .tomb
  rel : ∀ i, cell s i = ofList l i

/-- A thread which accesses an element in buffer `k`. -/
structure At (s : Mem) (l : List Nat) (o : Op) (k : Nat) : Prop where
  le : k ≤ s.last
  lt : o.index < s.cap k
  moved : s.data < k → s.mem s.data o.index = .closed
  push : ∀ i v, o = .push i v → s.data = s.last ∧ l.length = i ∧ s.size = i + 1

def ContInv (s : Mem) (l : List Nat) (k : Nat) : Cont → Prop
  | .op o => o.isPush = false ∧ o.index < s.cap k ∧ s.mem k o.index = .closed
  | .grow g n => 0 < s.cap k ∧ s.last = k + 1 ∧ l.length = s.size ∧ ∀ m, g = .resize m → s.size ≤ m ∧ m ≤ n

structure OwnInv (s : Mem) (k i v : Nat) : Prop where
  now : k = s.data
  src : s.mem k i ≠ .closed
  dst : s.mem (k + 1) i = .val v

def PcInv (s : Mem) (l : List Nat) (k : Nat) : CopyPc → Prop
  | .start => True
  | .rd i d => i < s.cap k ∧ d ≠ .closed
  | .wr i d v => i < s.cap k ∧ d ≠ .closed ∧ v ≠ .closed ∧ (v ≠ .tomb → i < l.length) ∧ (d ≠ .tomb → v ≠ .tomb)
  | .cl i v => i < s.cap k ∧ v ≠ .closed
  | .chk i => i < s.cap k
  | .dec i => i < s.cap k
  | .fin => ∀ i, i < s.cap k → s.mem k i = .closed

def GrowInv (s : Mem) (l : List Nat) (g : Grow) : GrowPc → Prop
  | .begin => l.length = s.size ∧ ∀ m, g = .resize m → s.size ≤ m
  | .check n => l.length = s.size ∧ ∀ m, g = .resize m → s.size ≤ m ∧ m ≤ n
  | .alloc n => l.length = s.size ∧ (∀ m, g = .resize m → s.size ≤ m ∧ m ≤ n) ∧ s.cap s.data < n
  | .old n c => l.length = s.size ∧ (∀ m, g = .resize m → s.size ≤ m ∧ m ≤ n) ∧ s.cap s.data < n ∧ n ≤ c
  | .link n c k => l.length = s.size ∧ (∀ m, g = .resize m → s.size ≤ m ∧ m ≤ n) ∧ s.cap s.data < n ∧ n ≤ c ∧ k = s.data
  | .done => l.length = s.size ∧ ∀ m, g = .resize m → s.size ≤ m ∧ m ≤ s.cap s.data
  | .len k => l.length = s.size ∧ k = s.data ∧ ∀ m, g ≠ .resize m
  | .inc k len => l.length = s.size ∧ k = s.data ∧ len < s.cap k ∧ ∀ m, g ≠ .resize m
  | .swap k => l.length = s.size ∧ k = s.data ∧ ∀ m, g = .resize m → s.size ≤ m ∧ m ≤ s.cap s.data
  | .fill k j n => k = s.data ∧ l.length = j ∧ j < n ∧ s.size = n
  | .trunc _ _ _ => False

/-- A thread. -/
def LInv (s : Mem) (l : List Nat) : Local → Prop
  | .idle => True
  | .size o => o.isPush = false
  | .data o => o.isPush = false ∧ o.index < s.cap s.data
  | .acc o k => At s l o k
  | .next o k => At s l o k ∧ s.mem k o.index = .closed
  | .swap o k cur => At s l o k ∧ cur ≠ .closed ∧ (cur = .tomb → o.isPush = true) ∧ (∀ i, o ≠ .read i) ∧ (∀ i old new, o = .cas i old new → cur = .val old)
  | .copy c k pc => k < s.last ∧ ContInv s l k c ∧ PcInv s l k pc ∧ ∀ i v, Owns (.copy c k pc) k i v → OwnInv s k i v
  | .grow g pc => s.data = s.last ∧ GrowInv s l g pc

structure Inv (n : Nat) (s : St) (l : List Nat) : Prop where
  sh : Sh s.toMem l
  th : ∀ t, LInv s.toMem l (s.th t)
  uniq : ∀ t t' k i v v', Owns (s.th t) k i v → Owns (s.th t') k i v' → t = t'
  busy : ∀ t, grower (s.th t) = true ↔ s.busy = some t
  free : s.busy = none → s.data = s.last ∧ l.length = s.size
  count : ∀ k, k ≤ s.last → s.open k = unclosed s.toMem k + sumTo (fun t => pend k (s.th t)) n

/-- A step of thread `t`: `s1` has the new shared memory, `x` is the new state of the thread. -/
theorem Inv.move {n : Nat} {s s1 s2 : St} {l l' : List Nat} (h : Inv n s l) (t : Nat) (ht : t < n) (x : Local) (hth : s1.th = s.th)
    (hs2 : s2 = s1.goto t x) (sh : Sh s1.toMem l')
    (oth : ∀ t', t' ≠ t → LInv s.toMem l (s.th t') → LInv s1.toMem l' (s.th t')) (hx : LInv s1.toMem l' x)
    (own : ∀ t' k i v v', t' ≠ t → Owns (s.th t') k i v → Owns x k i v' → False)
    (bz : s1.busy = s.busy) (gx : grower x = grower (s.th t))
    (fr : s1.busy = none → s1.data = s1.last ∧ l'.length = s1.size)
    (ct : ∀ k, k ≤ s1.last → s1.open k + pend k (s.th t) = unclosed s1.toMem k + sumTo (fun t => pend k (s.th t)) n + pend k x) :
    Inv n s2 l' := by
  subst hs2
  have hn : ∀ u, (s1.goto t x).th u = if u = t then x else s.th u := by intro u; simp [St.goto, upd, hth]
  refine ⟨sh, ?_, ?_, ?_, fr, ?_⟩
  · intro u
    rw [hn]
    split
    · exact hx
    · next hu => exact oth u hu (h.th u)
  · intro u u' k i v v' h1 h2
    rw [hn] at h1 h2
    split at h1 <;> split at h2
    · next a b => rw [a, b]
    · next a b => exact (own u' k i v' v b h2 h1).elim
    · next a b => exact (own u k i v v' a h1 h2).elim
    · exact h.uniq u u' k i v v' h1 h2
  · intro u
    rw [hn]
    have : (s1.goto t x).busy = s.busy := bz
    rw [this]
    split
    · next hu => subst hu; rw [gx]; exact h.busy u
    · exact h.busy u
  · intro k hk
    have hc := ct k hk
    have he : sumTo (fun u => pend k ((s1.goto t x).th u)) n = sumTo (upd (fun u => pend k (s.th u)) t (pend k x)) n := by
      apply sumTo_congr
      intro u _
      rw [hn]
      simp only [upd]
      split <;> rfl
    have hu := sumTo_upd (fun u => pend k (s.th u)) n t (pend k x) ht
    have h1 : (s1.goto t x).open k = s1.open k := rfl
    have h2 : unclosed (s1.goto t x).toMem k = unclosed s1.toMem k := rfl
    rw [he, h1, h2]
    omega

/-- The same for a thread which has finished its operation. -/
theorem Inv.finish {n : Nat} {s s1 s2 : St} {l l' : List Nat} (h : Inv n s l) (t : Nat) (ht : t < n) (hth : s1.th = s.th)
    (hs2 : s2 = s1.finish t) (sh : Sh s1.toMem l')
    (oth : ∀ t', t' ≠ t → LInv s.toMem l (s.th t') → LInv s1.toMem l' (s.th t'))
    (bz : s1.busy = s.busy)
    (fr : s1.busy = none ∨ grower (s.th t) = true → s1.data = s1.last ∧ l'.length = s1.size)
    (ct : ∀ k, k ≤ s1.last → s1.open k + pend k (s.th t) = unclosed s1.toMem k + sumTo (fun t => pend k (s.th t)) n) :
    Inv n s2 l' := by
  subst hs2
  have hn : ∀ u, (s1.finish t).th u = if u = t then .idle else s.th u := by intro u; simp [St.finish, upd, hth]
  have hb : (s1.finish t).busy = if s.busy = some t then none else s.busy := by simp [St.finish, bz]
  refine ⟨sh, ?_, ?_, ?_, ?_, ?_⟩
  · intro u
    rw [hn]
    split
    · trivial
    · next hu => exact oth u hu (h.th u)
  · intro u u' k i v v' h1 h2
    rw [hn] at h1 h2
    split at h1 <;> split at h2
    · next a b => rw [a, b]
    · next a b => cases h1
    · next a b => cases h2
    · exact h.uniq u u' k i v v' h1 h2
  · intro u
    rw [hn, hb]
    have hbu := h.busy u
    have hbt := h.busy t
    by_cases hu : u = t
    · subst hu
      rw [if_pos rfl]
      simp only [grower]
      split <;> simp_all
    · rw [if_neg hu]
      split
      · next hbz => rw [hbu, hbz]; simp; exact fun h => hu h.symm
      · exact hbu
  · intro hbz
    rw [hb] at hbz
    apply fr
    split at hbz
    · next hbt => exact Or.inr ((h.busy t).mpr hbt)
    · exact Or.inl (bz.trans hbz)
  · intro k hk
    have hc := ct k hk
    have he : sumTo (fun u => pend k ((s1.finish t).th u)) n = sumTo (upd (fun u => pend k (s.th u)) t 0) n := by
      apply sumTo_congr
      intro u _
      rw [hn]
      simp only [upd]
      split <;> rfl
    have hu := sumTo_upd (fun u => pend k (s.th u)) n t 0 ht
    have h1 : (s1.finish t).open k = s1.open k := rfl
    have h2 : unclosed (s1.finish t).toMem k = unclosed s1.toMem k := rfl
    rw [he, h1, h2]
    omega

/-- A step which changes nothing but the state of the thread. -/
theorem Inv.local {n : Nat} {s : St} {l : List Nat} (h : Inv n s l) (t : Nat) (ht : t < n) (x : Local) (hx : LInv s.toMem l x)
    (own : ∀ k i v, Owns x k i v → Owns (s.th t) k i v) (gx : grower x = grower (s.th t))
    (px : ∀ k, pend k x = pend k (s.th t)) : Inv n (s.goto t x) l := by
  refine h.move t ht x rfl rfl h.sh (fun _ _ h => h) hx ?_ rfl gx h.free ?_
  · intro t' k i v v' hne h1 h2
    exact hne (h.uniq t' t k i v v' h1 (own k i v' h2))
  · intro k hk
    rw [px k]
    have := h.count k hk
    omega

theorem Inv.quit {n : Nat} {s : St} {l : List Nat} (h : Inv n s l) (t : Nat) (ht : t < n)
    (px : ∀ k, pend k (s.th t) = 0) (fr : grower (s.th t) = true → s.data = s.last ∧ l.length = s.size) : Inv n (s.finish t) l := by
  refine h.finish t ht rfl rfl h.sh (fun _ _ h => h) rfl ?_ ?_
  · rintro (hb | hg)
    · exact h.free hb
    · exact fr hg
  · intro k hk
    rw [px k]
    have := h.count k hk
    omega

theorem unclosed_zero {s : Mem} {k : Nat} (h : unclosed s k = 0) (i : Nat) (hi : i < s.cap k) : s.mem k i = .closed := by
  have := sumTo_zero h i hi
  split at this
  · assumption
  · omega

theorem pend_le {n : Nat} {f : Nat → Nat} {t : Nat} (ht : t < n) : f t ≤ sumTo f n := by
  have := sumTo_upd f n t 0 ht
  omega

end Verif.Conc
