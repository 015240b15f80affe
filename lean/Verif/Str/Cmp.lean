import Verif.Str.Ops

/-! Comparison of strings. -/
namespace Verif.Str

theorem unit_eq (m A r : List Nat) (i j k : Nat) (h : m.drop i = A ++ r) (hk : 0 < k) (hl : j + k ≤ A.length) :
    unit m k (i + j) = some (leVal ((A.drop j).take k)) := by
  unfold unit
  have e : m.drop (i + j) = A.drop j ++ r := by
    rw [← List.drop_drop, h, List.drop_append_of_le_length (by omega)]
  have hl2 := congrArg List.length e
  rw [List.length_drop, List.length_append, List.length_drop] at hl2
  rw [if_pos (by omega), e, List.take_append_of_le_length (by rw [List.length_drop]; omega)]

theorem byte_eq (m A r : List Nat) (i j : Nat) (h : m.drop i = A ++ r) (hl : j < A.length) : m[i + j]? = A[j]? := by
  rw [← List.getElem?_drop, h, List.getElem?_append_left hl]

theorem take_step (A B : List Nat) (d u : Nat) (h : A.take d = B.take d) (e : (A.drop d).take u = (B.drop d).take u) :
    A.take (d + u) = B.take (d + u) := by
  rw [List.take_add, List.take_add, h, e]

theorem cmpLead_spec (pa : Nat) (ma mb A B ra rb : List Nat) (ia ib : Nat) (hA : ma.drop ia = A ++ ra) (hB : mb.drop ib = B ++ rb)
    (hl : A.length = B.length) (fuel d k : Nat) (hk : k < fuel) (hd : d + k ≤ A.length) (h8 : (pa + d + k) % 8 = 0) (h7 : k < 8)
    (h : A.take d = B.take d) :
    ∃ d', cmpLead pa ma mb ia ib fuel d = some d' ∧ d ≤ d' ∧ A.take d' = B.take d' ∧
      (d' = d + k ∨ (d' < d + k ∧ (pa + d') % 8 ≠ 0 ∧ A[d']? ≠ B[d']?)) := by
  induction fuel generalizing d k with
  | zero => omega
  | succ fuel ih =>
    rw [cmpLead]
    by_cases hz : (pa + d) % 8 = 0
    · rw [if_neg (by omega)]
      exact ⟨d, rfl, Nat.le_refl _, h, Or.inl (by omega)⟩
    · rw [if_pos hz]
      have hk0 : k ≠ 0 := by intro c; subst c; exact hz h8
      have hdl : d < A.length := by omega
      have hdl' : d < B.length := by omega
      rw [byte_eq ma A ra ia d hA hdl, byte_eq mb B rb ib d hB hdl', List.getElem?_eq_getElem hdl, List.getElem?_eq_getElem hdl']
      simp only
      by_cases e : A[d] = B[d]
      · rw [if_pos e]
        obtain ⟨d', e1, e2, e3, e4⟩ := ih (d + 1) (k - 1) (by omega) (by omega) (by rw [← h8]; congr 1; omega) (by omega)
          (by apply take_step _ _ _ _ h
              rw [List.drop_eq_getElem_cons hdl, List.drop_eq_getElem_cons hdl', List.take_succ_cons, List.take_succ_cons, e]; rfl)
        refine ⟨d', e1, by omega, e3, ?_⟩
        rcases e4 with e4 | e4
        · left; omega
        · right; exact ⟨by omega, e4.2⟩
      · rw [if_neg e]
        refine ⟨d, rfl, Nat.le_refl _, h, Or.inr ⟨by omega, hz, ?_⟩⟩
        rw [List.getElem?_eq_getElem hdl, List.getElem?_eq_getElem hdl']
        simpa using e

theorem cmpUnits_spec (u stop : Nat) (ma mb A B ra rb : List Nat) (ia ib : Nat) (hA : ma.drop ia = A ++ ra) (hB : mb.drop ib = B ++ rb)
    (hl : A.length = B.length) (hab : ∀ x ∈ A, x < 256) (hbb : ∀ x ∈ B, x < 256) (hu : 0 < u) (hs : stop ≤ A.length) (fuel d q : Nat)
    (hq : stop = d + q * u) (hf : q < fuel) (h : A.take d = B.take d) :
    ∃ d' p, cmpUnits u stop ma mb ia ib fuel d = some d' ∧ d' = d + p * u ∧ p ≤ q ∧ A.take d' = B.take d' ∧
      (d' = stop ∨ (p < q ∧ leVal ((A.drop d').take u) ≠ leVal ((B.drop d').take u))) := by
  induction fuel generalizing d q with
  | zero => omega
  | succ fuel ih =>
    rw [cmpUnits]
    cases q with
    | zero =>
      rw [if_neg (by omega)]
      exact ⟨d, 0, rfl, by omega, Nat.le_refl _, h, Or.inl (by omega)⟩
    | succ q =>
      rw [Nat.succ_mul] at hq
      rw [if_pos (by omega), unit_eq ma A ra ia d u hA hu (by omega), unit_eq mb B rb ib d u hB hu (by omega)]
      simp only
      by_cases e : leVal ((A.drop d).take u) = leVal ((B.drop d).take u)
      · rw [if_pos e]
        have e' := leVal_inj ((A.drop d).take u) ((B.drop d).take u)
          (fun x hx => hab x (List.mem_of_mem_drop (List.mem_of_mem_take hx)))
          (fun x hx => hbb x (List.mem_of_mem_drop (List.mem_of_mem_take hx)))
          (by simp only [List.length_take, List.length_drop]; omega) e
        obtain ⟨d', p, e1, e2, e3, e4, e5⟩ := ih (d + u) q (by omega) (by omega) (take_step _ _ _ _ h e')
        refine ⟨d', p + 1, e1, by rw [Nat.succ_mul]; omega, by omega, e4, ?_⟩
        rcases e5 with e5 | e5
        · left; exact e5
        · right; exact ⟨by omega, e5.2⟩
      · rw [if_neg e]
        exact ⟨d, 0, rfl, by omega, by omega, h, Or.inr ⟨by omega, e⟩⟩

theorem enc_inj (n : Nat) (xs ys : List Nat) (hx : ∀ c ∈ xs, c < 256 ^ n) (hy : ∀ c ∈ ys, c < 256 ^ n) (hl : xs.length = ys.length)
    (e : enc n xs = enc n ys) : xs = ys := by
  induction xs generalizing ys with
  | nil => cases ys with
    | nil => rfl
    | cons => simp at hl
  | cons x xs ih => cases ys with
    | nil => simp at hl
    | cons y ys =>
      rw [enc_cons, enc_cons] at e
      obtain ⟨e1, e2⟩ := List.append_inj e (by rw [leBytes_length, leBytes_length])
      have h1 : x = y := by
        have := congrArg leVal e1
        rwa [leVal_leBytes, leVal_leBytes, Nat.mod_eq_of_lt (hx x (by simp)), Nat.mod_eq_of_lt (hy y (by simp))] at this
      rw [h1, ih ys (fun c hc => hx c (by simp [hc])) (fun c hc => hy c (by simp [hc])) (by simpa using hl) e2]

/-- The first place where two lists differ. -/
def FirstDiff (xs ys : List Nat) (x y : Nat) : Prop := ∃ p s t, xs = p ++ x :: s ∧ ys = p ++ y :: t ∧ x ≠ y

/-- One list begins with the other. -/
def Pre (xs ys : List Nat) : Prop := xs <+: ys ∨ ys <+: xs

theorem firstDiff_of (xs ys : List Nat) (k : Nat) (hx : k < xs.length) (hy : k < ys.length) (h : xs.take k = ys.take k) (e : xs[k] ≠ ys[k]) :
    FirstDiff xs ys xs[k] ys[k] :=
  ⟨xs.take k, xs.drop (k + 1), ys.drop (k + 1), by rw [List.getElem_cons_drop, List.take_append_drop],
    by rw [h, List.getElem_cons_drop, List.take_append_drop], e⟩

theorem exists_firstDiff (xs ys : List Nat) (hl : xs.length = ys.length) (h : xs ≠ ys) : ∃ x y, FirstDiff xs ys x y := by
  induction xs generalizing ys with
  | nil => cases ys with
    | nil => exact absurd rfl h
    | cons => simp at hl
  | cons x xs ih => cases ys with
    | nil => simp at hl
    | cons y ys =>
      by_cases e : x = y
      · subst e
        obtain ⟨a, b, p, s, t, h1, h2, h3⟩ := ih ys (by simpa using hl) (by intro c; subst c; exact h rfl)
        exact ⟨a, b, x :: p, s, t, by rw [h1]; rfl, by rw [h2]; rfl, h3⟩
      · exact ⟨x, y, [], xs, ys, rfl, rfl, e⟩

theorem FirstDiff.extend {xs ys : List Nat} {x y : Nat} (n : Nat) (h : FirstDiff (xs.take n) (ys.take n) x y) : FirstDiff xs ys x y := by
  obtain ⟨p, s, t, h1, h2, h3⟩ := h
  refine ⟨p, s ++ xs.drop n, t ++ ys.drop n, ?_, ?_, h3⟩
  · conv => lhs; rw [← List.take_append_drop n xs, h1]
    simp
  · conv => lhs; rw [← List.take_append_drop n ys, h2]
    simp

theorem pre_of_take (xs ys : List Nat) (n : Nat) (hn : n = xs.length ∨ n = ys.length) (h : xs.take n = ys.take n) : Pre xs ys := by
  rcases hn with rfl | rfl
  · rw [List.take_length] at h
    left; rw [h]; exact List.take_prefix _ _
  · rw [List.take_length] at h
    right; rw [← h]; exact List.take_prefix _ _

/-- Characters `b` to `e - 1` of a string, as bytes. -/
theorem Rep.slice {s : S} {cs : List Nat} (h : Rep s cs) (b e n : Nat) (h1 : b ≤ e) (h2 : e ≤ cs.length) (hn : n ≤ e - b) :
    ∃ rest, s.mem.drop (b * s.width.bytes) = enc s.width.bytes (((cs.take e).drop b).take n) ++ rest := by
  obtain ⟨rest, e1⟩ := h.drop b (by omega)
  refine ⟨enc s.width.bytes (cs.drop (b + n)) ++ rest, ?_⟩
  rw [e1, ← List.append_assoc, ← enc_append, List.drop_take, List.take_take, Nat.min_eq_left hn, ← List.drop_drop, List.take_append_drop]

/-- Both slices start in the middle of an aligned word, with elements wider than a byte. -/
def Misaligned (a : S) (ab : Nat) (b : S) (bb : Nat) : Prop :=
  a.width = b.width ∧ a.width ≠ .w8 ∧ (a.addr + ab * a.width.bytes) % 8 ≠ 0 ∧ (b.addr + bb * b.width.bytes) % 8 ≠ 0

/-- What a comparison may return. -/
def CmpRes (coll : Nat → Nat → Int) (mis : Prop) (xs ys : List Nat) (r : Int) : Prop :=
  (Pre xs ys ∧ r = (xs.length : Int) - ys.length) ∨
  (∃ x y, FirstDiff xs ys x y ∧ (r = coll x y ∨ r = - coll y x)) ∨
  (mis ∧ (∃ x y, FirstDiff xs ys x y) ∧ ∃ u v, u ≠ v ∧ r = coll u v)

theorem take_dvd (n d : Nat) (w : Width) (hw : n = w.bytes) (h : d % 8 = 0) : ∃ k, d = k * n := by
  cases w <;> simp only [Width.bytes] at hw <;> subst hw
  · exact ⟨d, by omega⟩
  · exact ⟨d / 2, by omega⟩
  · exact ⟨d / 4, by omega⟩

theorem align_dvd (n pa d : Nat) (w : Width) (hw : n = w.bytes) (ha : pa % n = 0) (h : (pa + d) % 8 = 0) : ∃ k, d = k * n := by
  cases w <;> simp only [Width.bytes] at hw <;> subst hw
  · exact ⟨d, by omega⟩
  · exact ⟨d / 2, by omega⟩
  · exact ⟨d / 4, by omega⟩

/-- The last loop and the result, starting from a whole number of elements. -/
theorem cmpTail_spec (n : Nat) (ma mb ra rb xs ys : List Nat) (ia ib : Nat) (hn : 0 < n)
    (hA : ma.drop ia = enc n xs ++ ra) (hB : mb.drop ib = enc n ys ++ rb) (hl : xs.length = ys.length)
    (hx : ∀ c ∈ xs, c < 256 ^ n) (hy : ∀ c ∈ ys, c < 256 ^ n) (k : Nat) (hk : k ≤ xs.length)
    (h : (enc n xs).take (k * n) = (enc n ys).take (k * n)) :
    ∃ d, cmpUnits n (xs.length * n) ma mb ia ib (xs.length * n + 1) (k * n) = some d ∧
      ((¬ d < xs.length * n ∧ xs = ys) ∨
       (d < xs.length * n ∧ ∃ x y, FirstDiff xs ys x y ∧ unit ma n (ia + d) = some x ∧ unit mb n (ib + d) = some y)) := by
  have hlen : (enc n xs).length = (enc n ys).length := by rw [enc_length, enc_length, hl]
  obtain ⟨d', p, e1, e2, e3, e4, e5⟩ := cmpUnits_spec n (xs.length * n) ma mb (enc n xs) (enc n ys) ra rb ia ib hA hB hlen
    (enc_lt n xs) (enc_lt n ys) hn (by rw [enc_length]; exact Nat.le_refl _) (xs.length * n + 1) (k * n) (xs.length - k)
    (by rw [← Nat.add_mul]; congr 1; omega)
    (by have : xs.length * 1 ≤ xs.length * n := Nat.mul_le_mul_left _ hn
        omega) h
  refine ⟨d', e1, ?_⟩
  have e2' : d' = (k + p) * n := by rw [e2, Nat.add_mul]
  have htk : xs.take (k + p) = ys.take (k + p) := by
    apply enc_inj n _ _ (fun c hc => hx c (List.mem_of_mem_take hc)) (fun c hc => hy c (List.mem_of_mem_take hc))
      (by simp only [List.length_take]; omega)
    rw [← enc_take, ← enc_take, ← e2', e4]
  rcases e5 with e5 | ⟨e5, e6⟩
  · left
    refine ⟨by omega, ?_⟩
    have : (k + p) = xs.length := by
      rw [e2'] at e5
      exact Nat.eq_of_mul_eq_mul_right hn e5
    rw [this, List.take_length] at htk
    rw [htk, hl, List.take_length]
  · right
    have hi : k + p < xs.length := by omega
    have hi' : k + p < ys.length := by omega
    have hlt : (k + p) * n + n ≤ xs.length * n := by
      rw [← Nat.succ_mul]; exact Nat.mul_le_mul_right n hi
    have ux := unit_eq ma _ ra ia d' n hA hn (by rw [enc_length, e2']; exact hlt)
    have uy := unit_eq mb _ rb ib d' n hB hn (by rw [enc_length, ← hl, e2']; exact hlt)
    have vx : leVal (((enc n xs).drop d').take n) = xs[k + p] := by
      rw [e2', enc_drop, List.drop_eq_getElem_cons hi, enc_cons, List.take_append_of_le_length (by rw [leBytes_length]; omega),
        List.take_of_length_le (by rw [leBytes_length]; omega), leVal_leBytes, Nat.mod_eq_of_lt (hx _ (List.getElem_mem hi))]
    have vy : leVal (((enc n ys).drop d').take n) = ys[k + p] := by
      rw [e2', enc_drop, List.drop_eq_getElem_cons hi', enc_cons, List.take_append_of_le_length (by rw [leBytes_length]; omega),
        List.take_of_length_le (by rw [leBytes_length]; omega), leVal_leBytes, Nat.mod_eq_of_lt (hy _ (List.getElem_mem hi'))]
    rw [vx, vy] at e6
    rw [vx] at ux
    rw [vy] at uy
    refine ⟨by omega, _, _, firstDiff_of xs ys (k + p) hi hi' htk e6, ux, uy⟩

theorem cmpSame_spec (coll : Nat → Nat → Int) (a b : S) (cs ds : List Nat) (ha : Rep a cs) (hb : Rep b ds) (hw : a.width = b.width)
    (ab ae bb be : Nat) (h1 : ab ≤ ae) (h2 : ae ≤ cs.length) (h3 : bb ≤ be) (h4 : be ≤ ds.length) :
    ∃ r, cmpSame coll a ab (ae - ab) b bb (be - bb) = some r ∧
      CmpRes coll (Misaligned a ab b bb) ((cs.take ae).drop ab) ((ds.take be).drop bb) r := by
  unfold cmpSame
  generalize hm : (if ae - ab < be - bb then ae - ab else be - bb) = m
  have hm1 : m ≤ ae - ab ∧ m ≤ be - bb ∧ (m = ae - ab ∨ m = be - bb) := by
    rw [← hm]; split <;> omega
  obtain ⟨ra, hA⟩ := ha.slice ab ae m h1 h2 hm1.1
  obtain ⟨rb, hB⟩ := hb.slice bb be m h3 h4 hm1.2.1
  rw [← hw] at hB
  simp only
  have hlx : ((cs.take ae).drop ab).length = ae - ab := by rw [List.length_drop, List.length_take]; omega
  have hly : ((ds.take be).drop bb).length = be - bb := by rw [List.length_drop, List.length_take]; omega
  generalize hxs : (cs.take ae).drop ab = xs at *
  generalize hys : (ds.take be).drop bb = ys at *
  have hfx : ∀ c ∈ xs.take m, c < 256 ^ a.width.bytes := by
    intro c hc
    have := List.mem_of_mem_take hc
    rw [← hxs] at this
    exact ha.fit c (List.mem_of_mem_take (List.mem_of_mem_drop this))
  have hfy : ∀ c ∈ ys.take m, c < 256 ^ a.width.bytes := by
    intro c hc
    have := List.mem_of_mem_take hc
    rw [← hys] at this
    rw [hw]
    exact hb.fit c (List.mem_of_mem_take (List.mem_of_mem_drop this))
  have hl1 : (xs.take m).length = m := by rw [List.length_take]; omega
  have hl2 : (ys.take m).length = m := by rw [List.length_take]; omega
  have hnp := a.width.pos
  have hal : (a.addr + ab * a.width.bytes) % a.width.bytes = 0 := by rw [Nat.add_mul_mod_self_right]; exact ha.align
  have hA2 : (enc a.width.bytes (xs.take m)).length = m * a.width.bytes := by rw [enc_length, hl1]
  have hB2 : (enc a.width.bytes (ys.take m)).length = m * a.width.bytes := by rw [enc_length, hl2]
  have hpre : xs.take m = ys.take m → Pre xs ys := fun h => pre_of_take xs ys m (by omega) h
  -- from a whole element on
  have tail : ∀ k, k ≤ m → (enc a.width.bytes (xs.take m)).take (k * a.width.bytes) = (enc a.width.bytes (ys.take m)).take (k * a.width.bytes) →
      ∃ r, (match cmpUnits a.width.bytes (m * a.width.bytes) a.mem b.mem (ab * a.width.bytes) (bb * a.width.bytes) (m * a.width.bytes + 1)
          (k * a.width.bytes) with
        | none => none
        | some d =>
          if d < m * a.width.bytes then
            match unit a.mem a.width.bytes (ab * a.width.bytes + d), unit b.mem a.width.bytes (bb * a.width.bytes + d) with
            | some ca, some cb => some (coll ca cb)
            | _, _ => none
          else some (((ae - ab : Nat) : Int) - (be - bb : Nat))) = some r ∧ CmpRes coll (Misaligned a ab b bb) xs ys r := by
    intro k hk hkt
    obtain ⟨d, e1, e2⟩ := cmpTail_spec a.width.bytes a.mem b.mem ra rb (xs.take m) (ys.take m) (ab * a.width.bytes) (bb * a.width.bytes)
      hnp hA hB (by omega) hfx hfy k (by omega) hkt
    rw [hl1] at e1 e2
    rw [e1]
    simp only
    rcases e2 with ⟨e2, e3⟩ | ⟨e2, x, y, e3, e4, e5⟩
    · rw [if_neg e2]
      exact ⟨_, rfl, Or.inl ⟨hpre e3, by rw [hlx, hly]⟩⟩
    · rw [if_pos e2, e4, e5]
      exact ⟨_, rfl, Or.inr (Or.inl ⟨x, y, e3.extend m, Or.inl rfl⟩)⟩
  by_cases hc : (a.addr + ab * a.width.bytes) % 8 = (b.addr + bb * a.width.bytes) % 8 ∧
      a.addr + ab * a.width.bytes + 8 < (a.addr + ab * a.width.bytes + m * a.width.bytes) / 8 * 8
  · rw [if_pos hc]
    generalize hpa : a.addr + ab * a.width.bytes = pa at *
    generalize hpb : b.addr + bb * a.width.bytes = pb at *
    have hN : 8 ≤ m * a.width.bytes := by omega
    obtain ⟨d, e1, e2, e3, e4⟩ := cmpLead_spec pa a.mem b.mem _ _ ra rb (ab * a.width.bytes) (bb * a.width.bytes) hA hB
      (by rw [hA2, hB2]) 9 0 ((8 - pa % 8) % 8) (by omega) (by rw [hA2]; omega) (by omega) (by omega) rfl
    rw [e1]
    simp only
    rcases e4 with e4 | ⟨e4, e5, e6⟩
    · have hd8 : (pa + d) % 8 = 0 := by omega
      rw [if_pos hd8]
      obtain ⟨d', p, f1, f2, f3, f4, f5⟩ := cmpUnits_spec 8 ((pa + m * a.width.bytes) / 8 * 8 - pa) a.mem b.mem _ _ ra rb (ab * a.width.bytes)
        (bb * a.width.bytes) hA hB (by rw [hA2, hB2]) (enc_lt _ _) (enc_lt _ _) (by omega) (by rw [hA2]; omega) (m * a.width.bytes + 1) d
        (((pa + m * a.width.bytes) / 8 * 8 - pa - d) / 8) (by omega) (by omega) e3
      rw [f1]
      simp only
      obtain ⟨k, hk⟩ := align_dvd a.width.bytes pa d' a.width rfl hal (by omega)
      have hkm : k ≤ m := by
        have : k * a.width.bytes ≤ m * a.width.bytes := by omega
        exact Nat.le_of_mul_le_mul_right this hnp
      rw [hk] at f4 ⊢
      exact tail k hkm f4
    · rw [if_neg e5]
      simp only
      -- the bytes at `d` differ, within the first word
      have hdN : d < m * a.width.bytes := by omega
      by_cases hdm : ∃ k, d = k * a.width.bytes
      · obtain ⟨k, hk⟩ := hdm
        rw [hk] at e3 ⊢
        exact tail k (Nat.le_of_mul_le_mul_right (show k * a.width.bytes ≤ m * a.width.bytes by omega) hnp) e3
      · have hmis : Misaligned a ab b bb := by
          refine ⟨hw, ?_, by rw [hpa]; omega, by rw [← hw, hpb]; omega⟩
          intro c
          exact hdm ⟨d, by rw [c]; simp [Width.bytes]⟩
        have hdn : d + a.width.bytes ≤ m * a.width.bytes := by
          have hal2 := hal
          have hdm2 := hdm
          cases hww : a.width with
          | w8 => exact absurd hww hmis.2.1
          | w16 => rw [hww] at hN hal2; simp only [Width.bytes] at hN hal2 ⊢; omega
          | w32 => rw [hww] at hN hal2; simp only [Width.bytes] at hN hal2 ⊢; omega
        have hua := unit_eq a.mem _ ra (ab * a.width.bytes) d a.width.bytes hA hnp (by rw [hA2]; exact hdn)
        have hub := unit_eq b.mem _ rb (bb * a.width.bytes) d a.width.bytes hB hnp (by rw [hB2]; exact hdn)
        have hdA : d < (enc a.width.bytes (xs.take m)).length := by rw [hA2]; exact hdN
        have hdB : d < (enc a.width.bytes (ys.take m)).length := by rw [hB2]; exact hdN
        have huv : leVal (((enc a.width.bytes (xs.take m)).drop d).take a.width.bytes) ≠
            leVal (((enc a.width.bytes (ys.take m)).drop d).take a.width.bytes) := by
          intro c
          have := leVal_inj _ _ (fun x hx => enc_lt _ _ x (List.mem_of_mem_drop (List.mem_of_mem_take hx)))
            (fun x hx => enc_lt _ _ x (List.mem_of_mem_drop (List.mem_of_mem_take hx)))
            (by simp only [List.length_take, List.length_drop, hA2, hB2]) c
          obtain ⟨j, hj⟩ : ∃ j, a.width.bytes = j + 1 := ⟨a.width.bytes - 1, by omega⟩
          rw [List.drop_eq_getElem_cons hdA, List.drop_eq_getElem_cons hdB] at this
          generalize a.width.bytes = n at *
          subst hj
          rw [List.take_succ_cons, List.take_succ_cons, List.cons.injEq] at this
          apply e6
          rw [List.getElem?_eq_getElem hdA, List.getElem?_eq_getElem hdB, this.1]
        have hne : xs.take m ≠ ys.take m := by
          intro c; rw [c] at huv; exact huv rfl
        have hfd : ∃ x y, FirstDiff xs ys x y := by
          obtain ⟨x, y, h⟩ := exists_firstDiff _ _ (by omega) hne
          exact ⟨x, y, h.extend m⟩
        rw [cmpUnits, if_pos hdN, hua, hub]
        simp only
        rw [if_neg huv]
        simp only
        rw [if_pos hdN, hua, hub]
        exact ⟨_, rfl, Or.inr (Or.inr ⟨hmis, hfd, _, _, huv, rfl⟩)⟩
  · rw [if_neg hc]
    have := tail 0 (by omega) (by simp)
    rw [Nat.zero_mul] at this
    exact this

theorem cmpMixed_spec (coll : Nat → Nat → Int) (a b : S) (cs ds : List Nat) (ha : Rep a cs) (hb : Rep b ds)
    (ab ae bb be : Nat) (h1 : ab ≤ ae) (h2 : ae ≤ cs.length) (h3 : bb ≤ be) (h4 : be ≤ ds.length) (n i : Nat)
    (hn : i + n = ae - ab ∨ i + n = be - bb) (hn1 : i + n ≤ ae - ab) (hn2 : i + n ≤ be - bb)
    (hp : ((cs.take ae).drop ab).take i = ((ds.take be).drop bb).take i) :
    ∃ r, cmpMixed coll a ab (ae - ab) b bb (be - bb) n i = some r ∧
      ((Pre ((cs.take ae).drop ab) ((ds.take be).drop bb) ∧ r = (((cs.take ae).drop ab).length : Int) - ((ds.take be).drop bb).length) ∨
       (∃ x y, FirstDiff ((cs.take ae).drop ab) ((ds.take be).drop bb) x y ∧ r = coll x y)) := by
  have hlx : ((cs.take ae).drop ab).length = ae - ab := by rw [List.length_drop, List.length_take]; omega
  have hly : ((ds.take be).drop bb).length = be - bb := by rw [List.length_drop, List.length_take]; omega
  induction n generalizing i with
  | zero =>
    refine ⟨_, rfl, Or.inl ⟨pre_of_take _ _ i (by rw [hlx, hly]; omega) hp, by rw [hlx, hly]⟩⟩
  | succ n ih =>
    rw [cmpMixed, ha.unit (ab + i) (by omega), hb.unit (bb + i) (by omega)]
    simp only
    have hix : i < ((cs.take ae).drop ab).length := by omega
    have hiy : i < ((ds.take be).drop bb).length := by omega
    have gx : ((cs.take ae).drop ab)[i] = cs[ab + i]'(by omega) := by rw [List.getElem_drop, List.getElem_take]
    have gy : ((ds.take be).drop bb)[i] = ds[bb + i]'(by omega) := by rw [List.getElem_drop, List.getElem_take]
    by_cases e : cs[ab + i]'(by omega) = ds[bb + i]'(by omega)
    · rw [if_neg (by simpa using e)]
      apply ih (i + 1) (by omega) (by omega) (by omega)
      rw [List.take_succ_eq_append_getElem hix, List.take_succ_eq_append_getElem hiy, hp, gx, gy, e]
    · rw [if_pos e]
      refine ⟨_, rfl, Or.inr ⟨_, _, firstDiff_of _ _ i hix hiy hp (by rw [gx, gy]; exact e), by rw [gx, gy]⟩⟩

theorem compareSlice_spec (coll : Nat → Nat → Int) (a b : S) (cs ds : List Nat) (ha : Rep a cs) (hb : Rep b ds)
    (ab ae bb be : Nat) (h1 : ab ≤ ae) (h2 : ae ≤ cs.length) (h3 : bb ≤ be) (h4 : be ≤ ds.length) :
    ∃ r, compareSlice coll a ab ae b bb be = some r ∧
      CmpRes coll (Misaligned a ab b bb) ((cs.take ae).drop ab) ((ds.take be).drop bb) r := by
  unfold compareSlice
  rw [ha.len, hb.len, if_neg (by omega)]
  simp only
  by_cases hw : a.width = b.width
  · rw [if_pos hw]
    exact cmpSame_spec coll a b cs ds ha hb hw ab ae bb be h1 h2 h3 h4
  · rw [if_neg hw]
    by_cases hc : a.width.code < b.width.code
    · rw [if_pos hc]
      obtain ⟨r, e1, e2⟩ := cmpMixed_spec coll a b cs ds ha hb ab ae bb be h1 h2 h3 h4 (if ae - ab < be - bb then ae - ab else be - bb) 0
        (by split <;> omega) (by split <;> omega) (by split <;> omega) rfl
      refine ⟨r, e1, ?_⟩
      rcases e2 with e2 | ⟨x, y, e2, e3⟩
      · exact Or.inl e2
      · exact Or.inr (Or.inl ⟨x, y, e2, Or.inl e3⟩)
    · rw [if_neg hc]
      obtain ⟨r, e1, e2⟩ := cmpMixed_spec coll b a ds cs hb ha bb be ab ae h3 h4 h1 h2 (if be - bb < ae - ab then be - bb else ae - ab) 0
        (by split <;> omega) (by split <;> omega) (by split <;> omega) rfl
      rw [e1]
      refine ⟨_, rfl, ?_⟩
      rcases e2 with ⟨e2, e3⟩ | ⟨x, y, ⟨p, s, t, f1, f2, f3⟩, e3⟩
      · exact Or.inl ⟨e2.symm, by rw [e3]; simp only; omega⟩
      · exact Or.inr (Or.inl ⟨y, x, ⟨p, t, s, f2, f1, f3.symm⟩, Or.inr (by rw [e3])⟩)

/-! ### Consequences -/

theorem Pre.eq_of_length {xs ys : List Nat} (h : Pre xs ys) (e : xs.length = ys.length) : xs = ys := by
  rcases h with h | h
  · exact h.eq_of_length e
  · exact (h.eq_of_length e.symm).symm

theorem FirstDiff.ne {xs ys : List Nat} {x y : Nat} (h : FirstDiff xs ys x y) : xs ≠ ys := by
  obtain ⟨p, s, t, rfl, rfl, h⟩ := h
  intro c
  have := List.append_cancel_left c
  rw [List.cons.injEq] at this
  exact h this.1

/-- Zero exactly for equal slices. -/
theorem CmpRes.zero {coll : Nat → Nat → Int} {mis : Prop} {xs ys : List Nat} {r : Int} (hc : ∀ x y, x ≠ y → coll x y ≠ 0)
    (h : CmpRes coll mis xs ys r) : r = 0 ↔ xs = ys := by
  rcases h with ⟨h1, h2⟩ | ⟨x, y, h1, h2⟩ | ⟨_, ⟨x, y, h1⟩, u, v, h2, h3⟩
  · constructor
    · intro c; exact h1.eq_of_length (by omega)
    · rintro rfl; omega
  · have hne := h1.ne
    obtain ⟨p, s, t, _, _, h3⟩ := h1
    have c1 := hc x y h3
    have c2 := hc y x h3.symm
    constructor
    · intro c; rcases h2 with h2 | h2 <;> omega
    · intro c; exact absurd c hne
  · have c1 := hc u v h2
    constructor
    · intro c; omega
    · intro c; exact absurd c h1.ne

end Verif.Str
