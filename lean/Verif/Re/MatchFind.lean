import Verif.Re.MatchRun
import Verif.Re.SpecFacts

/-!
# `re.find` finds the leftmost preferred match

From the proof about code to `match_string` and to the loop of `re_find`.
-/

namespace Verif.Re

open Spec

theorem Env.run_mono {E : Env} {p : Nat} : ∀ {n m : Nat} {c : Cfg} {o : Out}, n ≤ m → E.run p n c = some o →
    E.run p m c = some o
  | 0, _, _, _, _, h => by simp [Env.run] at h
  | n + 1, 0, _, _, hle, _ => by omega
  | n + 1, m + 1, c, o, hle, h => by
    simp only [Env.run] at h ⊢
    cases hs : E.step c <;> simp only [hs] at h ⊢
    · exact Env.run_mono (by omega) h
    · exact h
    · exact h
    · exact h

/-- The code of a program is that of an expression. -/
structure Compiled (p : Prog) (r : Regex) : Prop where
  code : ∃ e, Code p.cls r 0 0 p.counts p.code e
  groups : p.groups = r.groups
  len : p.code.length ≤ 32767
  few : p.groups ≤ 0x7FFF

theorem matchAt_finds {E : Env} {r : Regex} (h : Compiled E.prog r) (hok : r.ok) (hhi : E.hi ≤ 65535) {pos : Nat}
    (hpos : pos ≤ E.hi) : ∃ n, E.matchAt n pos = some (pick E pos (outcomes E.subject r 0 ⟨pos, fun _ => none⟩)) := by
  obtain ⟨e, hc⟩ := h.code
  have hb := Code.block (p := pos) hhi h.len h.few hc (ip := 0) (opens := fun _ => none) (held := fun _ => none)
    (quantsOk_of_ok r hok) ⟨[], by simp⟩ (by rw [h.groups]; omega) (Nat.le_refl _) (fun _ _ _ => rfl) (fun _ _ _ => rfl)
  have hend : Cont E pos (0 + E.prog.code.length) (fun _ => none) (fun _ => none) fun st => [st] := by
    intro st q slots stack l rel _
    refine ⟨1, ?_⟩
    have hs : E.step ⟨0 + E.prog.code.length, q, slots, stack⟩ = .found ⟨0 + E.prog.code.length, q, slots, stack⟩ := by
      unfold Env.step
      rw [if_neg (by simp)]
    have hm : (List.range E.prog.groups).map (foundGroup E.prog slots)
        = (List.range E.prog.groups).map fun i => seen (st.groups i) :=
      List.map_congr_left fun i hi => rel.grp i (List.mem_range.1 hi) rfl
    simp only [Env.run, hs, pick, List.singleton_append, List.head?_cons, Env.result, hm, ← rel.pos_eq]
  have hcont := hb _ hend
  have hrel : Rel E (fun _ => none) (fun _ => none) ⟨pos, fun _ => none⟩ pos
      (List.replicate E.prog.counts 0 ++ List.replicate (2 * E.prog.groups) 0xFFFF) := by
    refine ⟨rfl, hpos, by simp, fun i hi _ => ?_, fun _ _ _ h => (nomatch h), fun _ _ _ h => (nomatch h)⟩
    have h1 : (List.replicate E.prog.counts 0 ++ List.replicate (2 * E.prog.groups) 0xFFFF).getD (E.prog.counts + i * 2) 0
        = 0xFFFF := by
      rw [List.getD_eq_getElem?_getD, List.getElem?_append_right (by simp), List.getElem?_replicate]
      rw [if_pos (by simp; omega)]
      rfl
    unfold foundGroup
    simp only [h1, seen]
    rw [if_neg (by simp)]
  obtain ⟨n, hn⟩ := hcont _ _ _ [] [] hrel (by simp [EvBack, pick])
  refine ⟨n, ?_⟩
  have hf : ∀ l : List State, (l.flatMap fun st => [st]) ++ [] = l := by
    intro l
    induction l <;> simp_all
  rw [hf] at hn
  exact hn

/-- The result which a state of the specification shows. -/
def shown (r : Regex) (i : Nat) (st : State) : Match :=
  ⟨i, st.pos, (List.range r.groups).map fun k => seen (st.groups k)⟩

theorem matchAt_best {E : Env} {r : Regex} (h : Compiled E.prog r) (hok : r.ok) (hhi : E.hi ≤ 65535) {pos : Nat}
    (hpos : pos ≤ E.hi) : ∃ n, ∀ m, n ≤ m → E.matchAt m pos = some (match best E.subject r pos with
      | some st => .found (shown r pos st)
      | none => .void) := by
  obtain ⟨n, hn⟩ := matchAt_finds h hok hhi hpos
  refine ⟨n, fun m hm => ?_⟩
  have hn' : E.matchAt m pos = _ := Env.run_mono hm hn
  rw [hn']
  simp only [pick, best, shown, h.groups]
  cases (outcomes E.subject r 0 ⟨pos, fun _ => none⟩).head? <;> rfl

/-- What `re.find` should give when the search begins at `i` and `k` places are left. -/
inductive Finds (S : Subject) (r : Regex) : Nat → Nat → Out → Prop where
  | nothing (i) : Finds S r 0 i .void
  | found {k i st} (h : best S r i = some st) : Finds S r (k + 1) i (.found (shown r i st))
  | next {k i o} (h : best S r i = none) (h' : Finds S r k (i + 1) o) : Finds S r (k + 1) i o

theorem findFrom_finds {E : Env} {r : Regex} (h : Compiled E.prog r) (hok : r.ok) (hhi : E.hi ≤ 65535) :
    ∀ k pos, pos + k ≤ E.hi + 1 → ∃ n o, Finds E.subject r k pos o ∧ ∀ m, n ≤ m → E.findFrom m k pos = some o
  | 0, pos, _ => ⟨0, .void, .nothing _, fun _ _ => rfl⟩
  | k + 1, pos, hle => by
    obtain ⟨n, hn⟩ := matchAt_best h hok hhi (pos := pos) (by omega)
    cases hb : best E.subject r pos with
    | some st =>
      refine ⟨n, _, .found hb, fun m hm => ?_⟩
      simp only [hb] at hn
      simp only [Env.findFrom, hn m hm]
    | none =>
      obtain ⟨n', o, ho, hn'⟩ := findFrom_finds h hok hhi k (pos + 1) (by omega)
      refine ⟨max n n', o, .next hb ho, fun m hm => ?_⟩
      simp only [hb] at hn
      simp only [Env.findFrom, hn m (by omega)]
      exact hn' m (by omega)

theorem Finds.spec {S : Subject} {r : Regex} {k i : Nat} {o : Out} (h : Finds S r k i o) :
    (o = .void ∧ ∀ x, i ≤ x → x < i + k → best S r x = none) ∨
    ∃ x st, o = .found (shown r x st) ∧ i ≤ x ∧ x < i + k ∧ best S r x = some st ∧
      ∀ y, i ≤ y → y < x → best S r y = none := by
  induction h with
  | nothing i => exact .inl ⟨rfl, fun x h1 h2 => by omega⟩
  | @found k i st h => exact .inr ⟨i, st, rfl, by omega, by omega, h, fun y h1 h2 => by omega⟩
  | @next k i o h _ ih =>
    have hor : ∀ x, i ≤ x → x = i ∨ i + 1 ≤ x := fun x hx => by omega
    rcases ih with ⟨h1, h2⟩ | ⟨x, st, h1, h2, h3, h4, h5⟩
    · refine .inl ⟨h1, fun x hx hk => ?_⟩
      rcases hor x hx with rfl | hx
      · exact h
      · exact h2 x hx (by omega)
    · refine .inr ⟨x, st, h1, by omega, by omega, h4, fun y hy hlt => ?_⟩
      rcases hor y hy with rfl | hy
      · exact h
      · exact h5 y hy hlt

/-- The result of `re.find`. -/
theorem find_spec {p : Prog} {r : Regex} (h : Compiled p r) (hok : r.ok) {str : List Nat} {lo hi : Nat} (hle : lo ≤ hi)
    (hhi : hi ≤ 65535) : ∃ n o, (∀ m, n ≤ m → find m p str lo hi = some o) ∧
      ((o = .void ∧ ∀ i, lo ≤ i → i ≤ hi → ∀ j, ¬ Lang ⟨str, lo, hi⟩ r i j) ∨
      ∃ i st, o = .found (shown r i st) ∧ lo ≤ i ∧ i ≤ hi ∧ best ⟨str, lo, hi⟩ r i = some st ∧
        Lang ⟨str, lo, hi⟩ r i st.pos ∧ Within i hi st ∧ ∀ y, lo ≤ y → y < i → ∀ j, ¬ Lang ⟨str, lo, hi⟩ r y j) := by
  obtain ⟨n, o, ho, hn⟩ := findFrom_finds (E := ⟨p, str, lo, hi⟩) h hok hhi (hi + 1 - lo) lo (by show _ ≤ hi + 1; omega)
  refine ⟨n, o, hn, ?_⟩
  have hsub : Env.subject ⟨p, str, lo, hi⟩ = ⟨str, lo, hi⟩ := rfl
  rw [hsub] at ho
  rcases ho.spec with ⟨h1, h2⟩ | ⟨x, st, h1, h2, h3, h4, h5⟩
  · exact .inl ⟨h1, fun i hl hh => (best_none ⟨str, lo, hi⟩ hhi hok hh).1 (h2 i hl (by omega))⟩
  · have hx : x ≤ hi := by omega
    have hs := best_some ⟨str, lo, hi⟩ hhi hok hx h4
    exact .inr ⟨x, st, h1, h2, hx, h4, hs.1, hs.2, fun y hy hlt =>
      (best_none ⟨str, lo, hi⟩ hhi hok (show y ≤ hi by omega)).1 (h5 y hy hlt)⟩

end Verif.Re
