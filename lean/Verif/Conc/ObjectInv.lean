import Verif.Conc.ObjectSpec
import Verif.Conc.ArrayInv

/-!
Invariant of the property tables, when a thread which copies does not read the hash of a key before it was written.
-/
namespace Verif.PropTab
open Verif.Conc (upd sumTo sumTo_congr sumTo_upd sumTo_zero pend_le)

def allClosed (s : Mem) (k : Nat) : Prop := ∀ i, i < s.cap k → s.val k i = .closed

def unclosed (s : Mem) (k : Nat) : Nat := sumTo (fun i => if s.val k i = .closed then 0 else 1) (s.cap k)

/-- The thread has seen a slot which is not closed and may still change the new table. -/
def dangPc : CopyPc → Bool
  | .key _ => true
  | .claim _ _ _ _ => true
  | .rsv _ _ => true
  | .swap _ _ => true
  | .put _ _ _ _ => true
  | _ => false

/-- The thread is counted in `active_copies`. -/
def countPc : CopyPc → Bool
  | .start => false
  | .inc _ => false
  | .wait => false
  | .adv => false
  | _ => true

/-- The thread has closed a slot but not yet counted it. -/
def pendPc : CopyPc → Bool
  | .dec _ => true
  | .put _ _ _ ret => ret
  | _ => false

def dang (k : Nat) : Local → Bool
  | .copy _ k' pc => if k' = k then dangPc pc else false
  | _ => false

def counted (k : Nat) : Local → Nat
  | .copy _ k' pc => if k' = k then (if countPc pc then 1 else 0) else 0
  | _ => 0

def pend (k : Nat) : Local → Nat
  | .copy _ k' pc => if k' = k then (if pendPc pc then 1 else 0) else 0
  | _ => 0

/-- Table `k` has been copied and nobody will change table `k + 1` on behalf of the copy. -/
def Done (s : St) (k : Nat) : Prop := allClosed s.toMem k ∧ ∀ t, dang k (s.th t) = false

/-- Key `k` has a slot in table `j`. -/
def has (s : Mem) (j k : Nat) : Prop := ∃ p, s.key j p = some k

/-- The value of key `k` is not in the last table but one. -/
def moved (s : Mem) (k : Nat) : Prop := ∀ j q, j + 1 = s.last → s.key j q = some k → s.val j q = .closed

def live : Val → Bool
  | .val _ => true
  | .reserved => true
  | _ => false

def Val.toOpt : Val → Option Nat
  | .val v => some v
  | _ => none

/-- The first `n` slots in which key `k` is looked for belong to other keys. -/
def seen (r : Rules) (s : Mem) (j k n : Nat) : Prop := ∀ m, m < n → ∃ x, s.key j (slot r s j k m) = some x ∧ x ≠ k

/-- The shared memory; `g p` is the value which is going to be written into the reserved slot `p` of the last table. -/
structure Sh (r : Rules) (s : Mem) (a : Abs) (g : Nat → Option Nat) : Prop where
  dl : s.data ≤ s.last
  pos : ∀ j, j ≤ s.last → 0 < s.cap j
  free : ∀ j p, s.last < j ∨ s.cap j ≤ p → s.key j p = none ∧ s.val j p = .tomb
  path : ∀ j p k, s.key j p = some k → ∃ n, p = slot r s j k n ∧ seen r s j k n
  used : ∀ j p, live (s.val j p) = true → ∃ k, s.key j p = some k
  front : ∀ p, s.val s.last p ≠ .closed
  sub : ∀ j k, s.data ≤ j → j < s.last → has s (j + 1) k → has s j k
  r1 : ∀ j p k x, s.key j p = some k → s.val j p = .val x → a.map k = some x
  r2 : ∀ j p k, s.key j p = some k → s.val j p = .tomb → (j = s.last → moved s k) → a.map k = none
  r3 : ∀ p k, s.key s.last p = some k → s.val s.last p = .reserved → moved s k → a.map k = g p
  r4 : ∀ k x, a.map k = some x → ∃ j p, s.key j p = some k ∧ live (s.val j p) = true
  one : ∀ j p q k, j < s.last → s.key j p = some k → s.val j p ≠ .closed → s.key (j + 1) q = some k →
    s.val (j + 1) q = .tomb ∨ s.val (j + 1) q = .reserved
  gone : ∀ t, a.map (a.op t).key = none → a.gone t = true

/-- The thread owns the reserved slot `p` of table `k + 1`. -/
inductive Owns : Local → Nat → Nat → Prop
  | swap (c : Cont) (k i p : Nat) : Owns (.copy c k (.swap i p)) k p
  | put (c : Cont) (k i p : Nat) (v : Val) (ret : Bool) : Owns (.copy c k (.put i p v ret)) k p

/-- A thread which starts from table `j` will find the property, unless it was absent at some moment. -/
def Trail (s : Mem) (a : Abs) (t j k : Nat) : Prop :=
  a.gone t = true ∨ ∃ m p, j ≤ m ∧ s.key m p = some k ∧ live (s.val m p) = true ∧ ∀ i, j ≤ i → i ≤ m → has s i k

def Op.writes : Op → Bool
  | .get _ => false
  | _ => true

/-- A thread which works with table `j`. -/
structure At (s : St) (a : Abs) (t : Nat) (o : Op) (j : Nat) : Prop where
  op : a.op t = o
  le : j ≤ s.last
  past : ∀ i, i < j → Done s i
  trail : Trail s.toMem a t j o.key
  chain : o.writes = true → ∀ i, s.data ≤ i → i < j → has s.toMem i o.key

def ContInv (s : St) (a : Abs) (t k : Nat) : Cont → Prop
  | .next o => At s a t o k ∧ (∃ i, i < s.cap k ∧ s.val k i = .closed) ∧ (o.writes = true → has s.toMem k o.key)
  | .again o => a.op t = o
  | .stop => True

def PcInv (r : Rules) (s : St) (g : Nat → Option Nat) (k : Nat) : CopyPc → Prop
  | .start => True
  | .inc i => i < s.cap k
  | .fast i => i < s.cap k
  | .rd i => i < s.cap k ∧ (s.val k i = .closed ∨ ∃ x, s.key k i = some x)
  | .key i => i < s.cap k ∧ ∃ x, s.key k i = some x
  | .claim i x hb n => i < s.cap k ∧ s.key k i = some x ∧ hb = true ∧ seen r s.toMem (k + 1) x n
  | .rsv i p => i < s.cap k ∧ ∃ x, s.key k i = some x ∧ s.key (k + 1) p = some x
  | .swap i p => i < s.cap k ∧ (∃ x, s.key k i = some x ∧ s.key (k + 1) p = some x) ∧ s.val (k + 1) p = .reserved ∧ g p = none
  | .put i p v _ => i < s.cap k ∧ (∃ x, s.key k i = some x ∧ s.key (k + 1) p = some x) ∧ s.val (k + 1) p = .reserved ∧ g p = v.toOpt ∧
      s.val k i = .closed ∧ (v = .tomb ∨ ∃ x, v = .val x)
  | .dec i => i < s.cap k
  | .chk i => i < s.cap k
  | .leave => allClosed s.toMem k
  | .wait => allClosed s.toMem k
  | .adv => Done s k

def RzInv (s : St) (a : Abs) (t j : Nat) (c : Cont) : Prop :=
  j ≤ s.last ∧ (∀ i, i < j → Done s i) ∧
  match c with
  | .next _ => False
  | .again o => a.op t = o
  | .stop => True

/-- Thread `t`. -/
def LInv (r : Rules) (s : St) (a : Abs) (g : Nat → Option Nat) (t : Nat) : Local → Prop
  | .idle => True
  | .props o => a.op t = o
  | .key o j n => At s a t o j ∧ seen r s.toMem j o.key n
  | .hash o j n => At s a t o j ∧ o.writes = true ∧ s.key j (slot r s.toMem j o.key n) = some o.key ∧ seen r s.toMem j o.key n
  | .val o j n x => At s a t o j ∧ seen r s.toMem j o.key n ∧ s.key j (slot r s.toMem j o.key n) = some x ∧ (o.writes = true → x = o.key)
  | .cas o j n x => At s a t o j ∧ o.writes = true ∧ s.key j (slot r s.toMem j o.key n) = some o.key ∧ x ≠ .closed ∧
      (s.val j (slot r s.toMem j o.key n) = x ∨ s.val j (slot r s.toMem j o.key n) = .closed ∨ a.over t = true)
  | .re o j n => At s a t o j ∧ o.writes = true ∧ s.key j (slot r s.toMem j o.key n) = some o.key ∧
      (s.val j (slot r s.toMem j o.key n) = .closed ∨ a.over t = true)
  | .fin j => j ≤ s.last ∧ ∀ i, i < j → Done s i
  | .rz c j => RzInv s a t j c
  | .link c j m => RzInv s a t j c ∧ 0 < m
  | .help c k => k < s.last ∧ ContInv s a t k c
  | .copy c k pc => k < s.last ∧ ContInv s a t k c ∧ PcInv r s g k pc

structure Inv (r : Rules) (n : Nat) (s : St) (a : Abs) (g : Nat → Option Nat) : Prop where
  sh : Sh r s.toMem a g
  idle : ∀ t, n ≤ t → s.th t = .idle
  done : ∀ i, i + 1 < s.last ∨ i < s.data → Done s i
  res : ∀ j p, s.val j p = .reserved → ∃ k t, j = k + 1 ∧ j = s.last ∧ Owns (s.th t) k p
  uniq : ∀ t u k p, Owns (s.th t) k p → Owns (s.th u) k p → t = u
  opens : ∀ k, k ≤ s.last → s.open k = unclosed s.toMem k + sumTo (fun t => pend k (s.th t)) n
  actives : ∀ k, k ≤ s.last → s.active k = sumTo (fun t => counted k (s.th t)) n
  started : ∀ k i, i < s.cap k → s.val k i = .closed → allClosed s.toMem k ∨ ∃ t, counted k (s.th t) = 1
  th : ∀ t, LInv r s a g t (s.th t)

/-- What a step of thread `t` guarantees to the others. -/
structure Ext (s s' : St) (a a' : Abs) (t : Nat) : Prop where
  last : s.last ≤ s'.last
  data : s.data ≤ s'.data
  cap : ∀ j, j ≤ s.last → s'.cap j = s.cap j
  key : ∀ j p k, s.key j p = some k → s'.key j p = some k
  closed : ∀ j p, s.val j p = .closed → s'.val j p = .closed
  done : ∀ k, k < s.last → Done s k → Done s' k
  op : ∀ u, u ≠ t → a'.op u = a.op u
  gone : ∀ u, u ≠ t → a.gone u = true → a'.gone u = true
  over : ∀ u, u ≠ t → a.over u = true → a'.over u = true
  live : ∀ m p k, s.key m p = some k → live (s.val m p) = true →
    (∀ u, u ≠ t → (a.op u).key = k → a'.gone u = true) ∨
    ∃ m' p', m ≤ m' ∧ s'.key m' p' = some k ∧ PropTab.live (s'.val m' p') = true ∧ ∀ i, m < i → i ≤ m' → has s'.toMem i k
  stay : ∀ j p k, j ≤ s.last → s.key j p = some k → (∀ i, i < j → Done s i) →
    s'.val j p = s.val j p ∨ s'.val j p = .closed ∨ ∀ u, u ≠ t → (a.op u).key = k → a'.over u = true

/-- Nobody else touches a reserved slot. -/
def Keeps (s s' : St) (g g' : Nat → Option Nat) (t : Nat) : Prop :=
  ∀ u k p, u ≠ t → Owns (s.th u) k p → s'.val (k + 1) p = s.val (k + 1) p ∧ g' p = g p

section
variable {r : Rules} {s s' : St} {a a' : Abs} {g g' : Nat → Option Nat} {t u : Nat}

theorem Ext.slot (e : Ext s s' a a' t) {j : Nat} (hj : j ≤ s.last) (k n : Nat) : slot r s'.toMem j k n = slot r s.toMem j k n := by
  simp only [PropTab.slot]; rw [e.cap j hj]

theorem Ext.has (e : Ext s s' a a' t) {j k : Nat} (h : has s.toMem j k) : has s'.toMem j k := by
  obtain ⟨p, hp⟩ := h; exact ⟨p, e.key j p k hp⟩

theorem Ext.seen (e : Ext s s' a a' t) {j k n : Nat} (hj : j ≤ s.last) (h : seen r s.toMem j k n) : seen r s'.toMem j k n := by
  intro m hm
  obtain ⟨x, hx, hne⟩ := h m hm
  exact ⟨x, by rw [e.slot hj]; exact e.key _ _ _ hx, hne⟩

theorem Ext.allClosed (e : Ext s s' a a' t) {k : Nat} (hk : k ≤ s.last) (h : allClosed s.toMem k) : allClosed s'.toMem k := by
  intro i hi
  rw [e.cap k hk] at hi
  exact e.closed k i (h i hi)

theorem Ext.trail (e : Ext s s' a a' t) (hu : u ≠ t) {j k : Nat} (hk : (a.op u).key = k) (h : Trail s.toMem a u j k) :
    Trail s'.toMem a' u j k := by
  rcases h with h | ⟨m, p, hjm, hp, hl, hi⟩
  · exact Or.inl (e.gone u hu h)
  · rcases e.live m p k hp hl with h | ⟨m', p', hm, hp', hl', hi'⟩
    · exact Or.inl (h u hu hk)
    · refine Or.inr ⟨m', p', by omega, hp', hl', fun i h1 h2 => ?_⟩
      by_cases hmi : m < i
      · exact hi' i hmi h2
      · exact e.has (hi i h1 (by omega))

theorem Ext.at (e : Ext s s' a a' t) (hu : u ≠ t) {o : Op} {j : Nat} (h : At s a u o j) : At s' a' u o j where
  op := by rw [e.op u hu, h.op]
  le := by have := h.le; have := e.last; omega
  past := fun i hi => e.done i (by have := h.le; omega) (h.past i hi)
  trail := e.trail hu (by rw [h.op]) h.trail
  chain := fun hw i h1 h2 => e.has (h.chain hw i (by have := e.data; omega) h2)

theorem Ext.cont (e : Ext s s' a a' t) (hu : u ≠ t) {k : Nat} (hk : k < s.last) {c : Cont} (h : ContInv s a u k c) : ContInv s' a' u k c := by
  cases c with
  | next o =>
    obtain ⟨h1, ⟨i, hi, hc⟩, h3⟩ := h
    exact ⟨e.at hu h1, ⟨i, by rw [e.cap k (by omega)]; exact hi, e.closed k i hc⟩, fun hw => e.has (h3 hw)⟩
  | again o => exact (e.op u hu).trans h
  | stop => trivial

theorem Ext.rz (e : Ext s s' a a' t) (hu : u ≠ t) {j : Nat} {c : Cont} (h : RzInv s a u j c) : RzInv s' a' u j c := by
  obtain ⟨h1, h2, h3⟩ := h
  refine ⟨by have := e.last; omega, fun i hi => e.done i (by omega) (h2 i hi), ?_⟩
  cases c with
  | next o => exact h3
  | again o => exact (e.op u hu).trans h3
  | stop => trivial

theorem Ext.pc (e : Ext s s' a a' t) (ho : Keeps s s' g g' t) (hu : u ≠ t) {k : Nat} (hk : k < s.last) {c : Cont} {pc : CopyPc} (hl : s.th u = .copy c k pc)
    (h : PcInv r s g k pc) : PcInv r s' g' k pc := by
  have hc : s'.cap k = s.cap k := e.cap k (by omega)
  have keys : ∀ {i p : Nat}, (∃ x, s.key k i = some x ∧ s.key (k + 1) p = some x) → ∃ x, s'.key k i = some x ∧ s'.key (k + 1) p = some x := by
    rintro i p ⟨x, h1, h2⟩
    exact ⟨x, e.key _ _ _ h1, e.key _ _ _ h2⟩
  cases pc with
  | start => trivial
  | inc i => exact lt_of_lt_of_eq h hc.symm
  | fast i => exact lt_of_lt_of_eq h hc.symm
  | rd i =>
    refine ⟨lt_of_lt_of_eq h.1 hc.symm, ?_⟩
    rcases h.2 with h2 | ⟨x, h2⟩
    · exact Or.inl (e.closed _ _ h2)
    · exact Or.inr ⟨x, e.key _ _ _ h2⟩
  | key i =>
    obtain ⟨h1, x, h2⟩ := h
    exact ⟨lt_of_lt_of_eq h1 hc.symm, x, e.key _ _ _ h2⟩
  | claim i x hb n =>
    obtain ⟨h1, h2, h3, h4⟩ := h
    exact ⟨lt_of_lt_of_eq h1 hc.symm, e.key _ _ _ h2, h3, e.seen (by omega) h4⟩
  | rsv i p =>
    obtain ⟨h1, h2⟩ := h
    exact ⟨lt_of_lt_of_eq h1 hc.symm, keys h2⟩
  | swap i p =>
    obtain ⟨h1, h2, h3, h4⟩ := h
    have ho := ho u k p hu (by rw [hl]; constructor)
    exact ⟨lt_of_lt_of_eq h1 hc.symm, keys h2, ho.1.trans h3, ho.2.trans h4⟩
  | put i p v ret =>
    obtain ⟨h1, h2, h3, h4, h5, h6⟩ := h
    have ho := ho u k p hu (by rw [hl]; constructor)
    exact ⟨lt_of_lt_of_eq h1 hc.symm, keys h2, ho.1.trans h3, ho.2.trans h4, e.closed _ _ h5, h6⟩
  | dec i => exact lt_of_lt_of_eq h hc.symm
  | chk i => exact lt_of_lt_of_eq h hc.symm
  | leave => exact e.allClosed (by omega) h
  | wait => exact e.allClosed (by omega) h
  | adv => exact e.done k hk h

theorem Ext.linv (e : Ext s s' a a' t) (ho : Keeps s s' g g' t) (hu : u ≠ t) (h : LInv r s a g u (s.th u)) : LInv r s' a' g' u (s.th u) := by
  generalize hl : s.th u = l at h ⊢
  cases l with
  | idle => trivial
  | props o => exact (e.op u hu).trans h
  | key o j n => exact ⟨e.at hu h.1, e.seen h.1.le h.2⟩
  | hash o j n =>
    obtain ⟨h1, h2, h3, h4⟩ := h
    exact ⟨e.at hu h1, h2, by rw [e.slot h1.le]; exact e.key _ _ _ h3, e.seen h1.le h4⟩
  | val o j n x =>
    obtain ⟨h1, h2, h3, h4⟩ := h
    exact ⟨e.at hu h1, e.seen h1.le h2, by rw [e.slot h1.le]; exact e.key _ _ _ h3, h4⟩
  | cas o j n x =>
    obtain ⟨h1, h2, h3, h4, h5⟩ := h
    refine ⟨e.at hu h1, h2, by rw [e.slot h1.le]; exact e.key _ _ _ h3, h4, ?_⟩
    rw [e.slot h1.le]
    rcases h5 with h5 | h5 | h5
    · rcases e.stay _ _ _ h1.le h3 h1.past with h | h | h
      · exact Or.inl (h.trans h5)
      · exact Or.inr (Or.inl h)
      · exact Or.inr (Or.inr (h u hu (by rw [h1.op])))
    · exact Or.inr (Or.inl (e.closed _ _ h5))
    · exact Or.inr (Or.inr (e.over u hu h5))
  | re o j n =>
    obtain ⟨h1, h2, h3, h5⟩ := h
    refine ⟨e.at hu h1, h2, by rw [e.slot h1.le]; exact e.key _ _ _ h3, ?_⟩
    rw [e.slot h1.le]
    rcases h5 with h5 | h5
    · exact Or.inl (e.closed _ _ h5)
    · exact Or.inr (e.over u hu h5)
  | fin j => exact ⟨by have := e.last; have := h.1; omega, fun i hi => e.done i (by have := h.1; omega) (h.2 i hi)⟩
  | rz c j => exact e.rz hu h
  | link c j m => exact ⟨e.rz hu h.1, h.2⟩
  | help c k => exact ⟨by have := e.last; have := h.1; omega, e.cont hu h.1 h.2⟩
  | copy c k pc => exact ⟨by have := e.last; have := h.1; omega, e.cont hu h.1 h.2.1, e.pc ho hu h.1 hl h.2.2⟩

end

theorem Done.keep {s s1 : St} {t : Nat} {x : Local} {k : Nat} (h : Done s k) (hth : s1.th = s.th) (hcap : s1.cap k = s.cap k)
    (hc : ∀ i, s.val k i = .closed → s1.val k i = .closed) (hx : dang k x = true → ¬ Done s k) : Done (s1.goto t x) k := by
  refine ⟨fun i hi => ?_, fun u => ?_⟩
  · have hi' : i < s.cap k := by rw [← hcap]; exact hi
    exact hc i (h.1 i hi')
  · simp only [St.goto, upd, hth]
    split
    · cases hd : dang k x
      · rfl
      · exact (hx hd h).elim
    · exact h.2 u

theorem counted_le (k : Nat) (l : Local) : counted k l ≤ 1 := by
  unfold counted
  split
  · split
    · split <;> omega
    · omega
  · omega

theorem sum_move (f : Local → Nat) {s s1 : St} {t n : Nat} {x : Local} (ht : t < n) (hth : s1.th = s.th) :
    sumTo (fun u => f ((s1.goto t x).th u)) n + f (s.th t) = sumTo (fun u => f (s.th u)) n + f x := by
  have he : sumTo (fun u => f ((s1.goto t x).th u)) n = sumTo (upd (fun u => f (s.th u)) t (f x)) n := by
    apply sumTo_congr
    intro u _
    simp only [St.goto, upd, hth]
    split <;> rfl
  have hu := sumTo_upd (fun u => f (s.th u)) n t (f x) ht
  rw [he]
  exact hu

/-- A step of thread `t`: `s1` has the new shared memory, `x` is the new state of the thread. -/
theorem Inv.move {r : Rules} {n : Nat} {s s1 s2 : St} {a a' : Abs} {g g' : Nat → Option Nat} (h : Inv r n s a g) (t : Nat) (ht : t < n) (x : Local)
    (hth : s1.th = s.th) (hs2 : s2 = s1.goto t x) (ext : Ext s s2 a a' t) (keeps : Keeps s s2 g g' t) (sh : Sh r s1.toMem a' g') (hx : LInv r s2 a' g' t x)
    (done : ∀ i, i + 1 < s1.last ∨ i < s1.data → Done s2 i)
    (res : ∀ j p, s1.val j p = .reserved → ∃ k u, j = k + 1 ∧ j = s1.last ∧ Owns (s2.th u) k p)
    (own : ∀ u k p, u ≠ t → Owns (s.th u) k p → Owns x k p → False)
    (opens : ∀ k, k ≤ s1.last → s1.open k + pend k (s.th t) = unclosed s1.toMem k + sumTo (fun t => pend k (s.th t)) n + pend k x)
    (actives : ∀ k, k ≤ s1.last → s1.active k + counted k (s.th t) = sumTo (fun t => counted k (s.th t)) n + counted k x)
    (started : ∀ k i, i < s1.cap k → s1.val k i = .closed → allClosed s1.toMem k ∨ ∃ u, counted k (s2.th u) = 1) :
    Inv r n s2 a' g' := by
  have hn : ∀ u, s2.th u = if u = t then x else s.th u := by intro u; rw [hs2]; simp [St.goto, upd, hth]
  have hm : s2.toMem = s1.toMem := by rw [hs2]; rfl
  refine ⟨by rw [hm]; exact sh, ?_, ?_, ?_, ?_, ?_, ?_, ?_, ?_⟩
  · intro u hu
    rw [hn, if_neg (by omega)]
    exact h.idle u hu
  · rw [hm]; exact done
  · rw [hm]; exact res
  · intro u v k p h1 h2
    rw [hn] at h1 h2
    split at h1 <;> split at h2
    · next a b => rw [a, b]
    · next a b => exact (own v k p b h2 h1).elim
    · next a b => exact (own u k p a h1 h2).elim
    · exact h.uniq u v k p h1 h2
  · intro k hk
    rw [hm] at hk ⊢
    have := opens k hk
    have hs := sum_move (pend k) (x := x) ht hth
    have ho : s2.open = s1.open := by rw [hs2]; rfl
    rw [← hs2] at hs
    rw [ho]
    omega
  · intro k hk
    rw [hm] at hk
    have := actives k hk
    have hs := sum_move (counted k) (x := x) ht hth
    have ho : s2.active = s1.active := by rw [hs2]; rfl
    rw [← hs2] at hs
    rw [ho]
    omega
  · rw [hm]; exact started
  · intro u
    rw [hn]
    split
    · next hu => rw [hu]; exact hx
    · next hu => exact ext.linv keeps hu (h.th u)

/-- Nothing changes for the others. -/
theorem Ext.same {r : Rules} {n : Nat} {s : St} {a : Abs} {g : Nat → Option Nat} (_ : Inv r n s a g) {t : Nat} {x : Local}
    (hd : ∀ k, dang k x = true → ¬ Done s k) : Ext s (s.goto t x) a a t where
  last := Nat.le_refl _
  data := Nat.le_refl _
  cap := fun _ _ => rfl
  key := fun _ _ _ h => h
  closed := fun _ _ h => h
  done := fun k _ hk => hk.keep rfl rfl (fun _ h => h) (hd k)
  op := fun _ _ => rfl
  gone := fun _ _ h => h
  over := fun _ _ h => h
  live := fun m p k h1 h2 => Or.inr ⟨m, p, Nat.le_refl _, h1, h2, fun i h3 h4 => by omega⟩
  stay := fun _ _ _ _ _ _ => Or.inl rfl

/-- A step which changes nothing but the state of the thread. -/
theorem Inv.local {r : Rules} {n : Nat} {s : St} {a : Abs} {g : Nat → Option Nat} (h : Inv r n s a g) (t : Nat) (ht : t < n) (x : Local)
    (hd : ∀ k, dang k x = true → ¬ Done s k) (hx : LInv r (s.goto t x) a g t x)
    (own : ∀ k p, Owns x k p ↔ Owns (s.th t) k p) (px : ∀ k, pend k x = pend k (s.th t)) (cx : ∀ k, counted k x = counted k (s.th t)) :
    Inv r n (s.goto t x) a g := by
  have hn : ∀ u, (s.goto t x).th u = if u = t then x else s.th u := by intro u; simp [St.goto, upd]
  refine h.move (s1 := s) t ht x rfl rfl (Ext.same h hd) (fun _ _ _ _ _ => ⟨rfl, rfl⟩) h.sh hx (fun i hi => (h.done i hi).keep rfl rfl (fun _ h => h) (hd i)) ?_ ?_ ?_ ?_ ?_
  · intro j p hv
    obtain ⟨k, u, h1, h2, h3⟩ := h.res j p hv
    refine ⟨k, u, h1, h2, ?_⟩
    rw [hn]
    split
    · next hu => subst hu; exact (own k p).mpr h3
    · exact h3
  · intro u k p hne h1 h2
    exact hne (h.uniq u t k p h1 ((own k p).mp h2))
  · intro k hk
    rw [px k]
    have := h.opens k hk
    omega
  · intro k hk
    rw [cx k]
    have := h.actives k hk
    omega
  · intro k i hi hc
    rcases h.started k i hi hc with h1 | ⟨u, hu⟩
    · exact Or.inl h1
    · refine Or.inr ⟨u, ?_⟩
      rw [hn]
      split
      · next he => subst he; rw [cx]; exact hu
      · exact hu

end Verif.PropTab
