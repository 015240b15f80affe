import Verif.Props.C18

/-
C68: what happens when several threads change the size of one array at once, or when it is made smaller while others use it.
-/
namespace Verif.Conc

def Ev.sets (i : Nat) : Ev → Bool
  | .write j _ => i == j
  | .cas j _ _ _ => i == j
  | .push j _ => i == j
  | .fill j => i == j
  | _ => false

/-- A removed element is not read before it is set again. -/
def Gone (es : List Ev) : Prop :=
  ∀ es1 es2 es3 i x, es = es1 ++ .trunc i :: es2 ++ .read i x :: es3 → es2.any (Ev.sets i) = true

/-- The full claim: whatever threads do, no access is outside of the storage, and removed elements are not seen again. -/
def C68_full : Prop := ∀ (l : List Nat) (c n : Nat) (es : List Ev) (s : St), l.length ≤ c → Run ⟨false, false⟩ n (fresh l c) es s →
  (∀ t ch, t < n → step ⟨false, false⟩ s t ch ≠ .bad) ∧ Gone es

/-- Two threads which only grow the array: thread 0 appends to an array of one element; it has allocated a buffer of capacity 5 but not yet read the
pointer to the current one. Thread 1 resizes the array to 9 elements. Thread 0 then replaces the buffer of 9 elements by the one of 5 and writes
outside of it. -/
def overrun : List (Nat × Choice) :=
  [(0, .grow (.push 9))] ++ steps 0 3 ++ [(0, .cap 5)] ++ [(1, .grow (.resize 9))] ++ steps 1 2 ++ [(1, .cap 9)] ++ steps 1 8 ++ steps 0 24

def isBad : Res → Bool
  | .bad => true
  | _ => false

theorem bad_of {r : Res} (h : isBad r = true) : r = .bad := by
  cases r <;> simp_all [isBad]

/-- The events, and whether the next step of thread `t` is bad. -/
def ending (r : Rules) (s : St) (p : List (Nat × Choice)) (t : Nat) : Option (List Ev × Bool) :=
  (play r s p).map (fun x => (x.1, isBad (step r x.2 t .go)))

theorem ending_bad {r : Rules} {s : St} {p : List (Nat × Choice)} {t : Nat} {es : List Ev} (h : ending r s p t = some (es, true)) :
    ∃ s', play r s p = some (es, s') ∧ step r s' t .go = .bad := by
  unfold ending at h
  rw [Option.map_eq_some_iff] at h
  obtain ⟨⟨es', s'⟩, h1, h2⟩ := h
  simp only [Prod.mk.injEq] at h2
  exact ⟨s', by rw [h1, h2.1], bad_of h2.2⟩

/-- Growing by two threads writes outside of the storage. -/
theorem C68_violated : ∃ s, Run ⟨false, true⟩ 2 (fresh [7] 1) [] s ∧ step ⟨false, true⟩ s 0 .go = .bad := by
  have h : ending ⟨false, true⟩ (fresh [7] 1) overrun 0 = some ([], true) := by decide +kernel
  obtain ⟨s, h1, h2⟩ := ending_bad h
  exact ⟨s, play_run _ 2 overrun _ _ _ (by decide) h1, h2⟩

/-- Thread 0 enlarges the storage of `[7, 8]`, then resizes the array to 1 and back to 2. Thread 1, which writes to the first element, has meanwhile
read the old slot of the second element in order to copy it, and now copies it; thread 2 reads the removed element. -/
def ghost : List (Nat × Choice) :=
  [(0, .grow (.reserve 5))] ++ steps 0 2 ++ [(0, .cap 5)] ++ steps 0 7 ++ [(1, .op (.write 0 5))] ++ steps 1 6 ++ steps 0 7 ++
  [(0, .grow (.resize 1))] ++ steps 0 3 ++ steps 1 1 ++ [(0, .grow (.resize 2))] ++ steps 0 2 ++ [(2, .op (.read 1))] ++ steps 2 3

/-- With one thread changing the size, a removed element is seen again. -/
theorem C68_ghost_violated : ∃ s, Run ⟨true, false⟩ 3 (fresh [7, 8] 2) [.trunc 1, .read 1 (.val 8)] s := by
  have h : (play ⟨true, false⟩ (fresh [7, 8] 2) ghost).map (·.1) = some [.trunc 1, .read 1 (.val 8)] := by decide +kernel
  rw [Option.map_eq_some_iff] at h
  obtain ⟨⟨es, s⟩, h1, h2⟩ := h
  simp only at h2
  subst h2
  exact ⟨s, play_run _ 3 ghost _ _ _ (by decide) h1⟩

theorem C68_full_false : ¬ C68_full := by
  intro h
  have h1 : ending ⟨false, false⟩ (fresh [7] 1) overrun 0 = some ([], true) := by decide +kernel
  obtain ⟨s, h2, h3⟩ := ending_bad h1
  exact (h [7] 1 2 [] s (by decide) (play_run _ 2 overrun _ _ _ (by decide) h2)).1 0 .go (by decide) h3

theorem atomics_no_trunc {l l' : List Nat} {es : List Ev} (h : Atomics l es l') (i : Nat) : Ev.trunc i ∉ es := by
  induction h with
  | nil l => simp
  | cons l l' l'' e es ha _ ih =>
    intro hm
    rcases List.mem_cons.mp hm with h1 | h1
    · subst h1; cases ha
    · exact ih h1

/-- True as long as one thread at a time changes the size, and never makes it smaller. Missing: everything else. -/
theorem C68_partial (l : List Nat) (c n : Nat) (es : List Ev) (s : St) (hc : l.length ≤ c) (hr : Run ⟨true, true⟩ n (fresh l c) es s) :
    (∀ t ch, t < n → step ⟨true, true⟩ s t ch ≠ .bad) ∧ Gone es := by
  obtain ⟨⟨l', h1, _⟩, h2⟩ := C18 l c n hc es s hr
  refine ⟨h2, ?_⟩
  intro es1 es2 es3 i x he
  exact absurd (by rw [he]; simp) (atomics_no_trunc h1 i)

end Verif.Conc
