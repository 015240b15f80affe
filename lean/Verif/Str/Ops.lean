import Verif.Str.Lemmas

/-! What the string functions do, in terms of characters. -/
namespace Verif.Str

theorem getCharCode_spec (s : S) (cs : List Nat) (idx : Int) (h : Rep s cs) :
    getCharCode s idx =
      match (if idx < 0 then (if 0 ≤ idx + cs.length then cs[(idx + cs.length).toNat]? else none) else cs[idx.toNat]?) with
      | some c => .ok c
      | none => .raise .badIndex := by
  unfold getCharCode
  rw [h.len]
  by_cases h0 : idx < 0
  · rw [if_pos h0, if_pos h0]
    simp only
    by_cases h1 : 0 ≤ idx + cs.length
    · rw [if_pos (show idx + cs.length ≥ 0 ∧ idx + cs.length < cs.length by omega), if_pos h1, h.unit _ (by omega),
        List.getElem?_eq_getElem (by omega)]
    · rw [if_neg (show ¬ (idx + cs.length ≥ 0 ∧ idx + cs.length < cs.length) by omega), if_neg h1]
  · rw [if_neg h0, if_neg h0]
    simp only
    by_cases h1 : idx < cs.length
    · rw [if_pos (show idx ≥ 0 ∧ idx < cs.length by omega), h.unit _ (by omega), List.getElem?_eq_getElem (by omega)]
    · rw [if_neg (show ¬ (idx ≥ 0 ∧ idx < cs.length) by omega), List.getElem?_eq_none (by omega)]

theorem sizeFromMaxCode_fit (c : Nat) (hc : c < 4294967296) :
    c < 256 ^ (sizeFromMaxCode c).1.bytes ∧ ((sizeFromMaxCode c).2 = true → (sizeFromMaxCode c).1 = .w8 ∧ c < 128) := by
  unfold sizeFromMaxCode
  by_cases h1 : c < 0x80
  · rw [if_pos h1]; exact ⟨by simp [Width.bytes]; omega, fun _ => ⟨rfl, h1⟩⟩
  · rw [if_neg h1]
    by_cases h2 : c < 0x100
    · rw [if_pos h2]; exact ⟨by simp [Width.bytes]; omega, by simp⟩
    · rw [if_neg h2]
      by_cases h3 : c < 0x10000
      · rw [if_pos h3]; exact ⟨by simp [Width.bytes]; omega, by simp⟩
      · rw [if_neg h3]; exact ⟨by simp [Width.bytes]; omega, by simp⟩

theorem Width.lim (w : Width) : 256 ^ w.bytes ≤ 4294967296 := by cases w <;> decide

theorem getChar_spec (env : Env) (s : S) (cs : List Nat) (idx : Int) (h : Rep s cs) :
    match getCharCode s idx with
    | .ok c => (∃ r, getChar env s idx = .ok r ∧ Rep r [c]) ∨ (getChar env s idx = .raise .outOfMemory ∧ env.mem = false)
    | .raise e => getChar env s idx = .raise e
    | .bad => False := by
  unfold getChar
  have hs := getCharCode_spec s cs idx h
  have key : ∀ c, getCharCode s idx = .ok c → c < 4294967296 := by
    intro c e
    rw [e] at hs
    have hm : c ∈ cs := by
      by_cases h0 : idx < 0
      · rw [if_pos h0] at hs
        by_cases h1 : 0 ≤ idx + cs.length
        · rw [if_pos h1] at hs
          cases hc : cs[(idx + cs.length).toNat]? with
          | none => rw [hc] at hs; cases hs
          | some d => rw [hc] at hs; cases hs; exact List.mem_of_getElem? hc
        · rw [if_neg h1] at hs; cases hs
      · rw [if_neg h0] at hs
        cases hc : cs[idx.toNat]? with
        | none => rw [hc] at hs; cases hs
        | some d => rw [hc] at hs; cases hs; exact List.mem_of_getElem? hc
    exact Nat.lt_of_lt_of_le (h.fit c hm) s.width.lim
  cases e : getCharCode s idx with
  | bad =>
    rw [e] at hs
    split at hs <;> cases hs
  | raise er => rfl
  | ok c =>
    simp only
    obtain ⟨f1, f2⟩ := sizeFromMaxCode_fit c (key c e)
    rcases newEmpty_spec env 1 (sizeFromMaxCode c).1 (sizeFromMaxCode c).2 (by omega) (by omega) with ⟨en, hm⟩ | ⟨m, en, hm⟩
    · right; rw [en]; exact ⟨rfl, hm⟩
    · left
      rw [en]
      simp only
      have hp := put_next [] m (leBytes (sizeFromMaxCode c).1.bytes c) (by rw [leBytes_length]; omega)
      simp only [List.nil_append, List.length_nil] at hp
      rw [hp]
      exact ⟨_, rfl, .fresh _ _ _ _ _ [c] (m.drop (leBytes (sizeFromMaxCode c).1.bytes c).length) rfl (by omega)
        (by rw [enc_cons, enc_nil, List.append_nil]) (by simpa using f1) (by simpa using f2)⟩

theorem hashLoop_spec (n : Nat) (hn : 0 < n) (pre cs rest : List Nat) (h : Nat) (hf : ∀ c ∈ cs, c < 256 ^ n) :
    hashLoop (enc n (pre ++ cs) ++ rest) n cs.length (pre.length * n) h =
      some (cs.foldl (fun h c => Nat.xor (h * 33 % 4294967296) c) h) := by
  induction cs generalizing pre h with
  | nil => rfl
  | cons c cs ih =>
    rw [List.length_cons, hashLoop]
    have e := unit_enc n pre.length (pre ++ c :: cs) rest (by simp) (by simpa using hf c (by simp))
    rw [List.getElem_append_right (Nat.le_refl _)] at e
    simp only [Nat.sub_self, List.getElem_cons_zero] at e
    rw [e]
    simp only
    have := ih (pre ++ [c]) (Nat.xor (h * 33 % 4294967296) c) (fun d hd => hf d (by simp [hd]))
    rw [List.append_assoc, List.singleton_append, List.length_append, List.length_singleton, Nat.add_mul, Nat.one_mul] at this
    rw [this]; rfl

theorem getHash_spec (debug : Bool) (s : S) (cs : List Nat) (h : Rep s cs) (hd : debug = true → hashOf cs ≠ 0) :
    ∃ s', getHash debug s = .ok (hashOf cs, s') ∧ Rep s' cs := by
  unfold getHash
  by_cases h0 : s.hash ≠ 0
  · rw [if_pos h0]
    rcases h.hash with e | e
    · exact absurd e h0
    · exact ⟨s, by rw [e], h⟩
  · rw [if_neg h0]
    obtain ⟨rest, e⟩ := h.mem
    have hl := hashLoop_spec s.width.bytes s.width.pos [] cs rest 5381 h.fit
    simp only [List.nil_append, List.length_nil, Nat.zero_mul] at hl
    rw [e, h.len, hl]
    change ∃ s', (if debug = true ∧ hashOf cs = 0 then Out.bad else Out.ok (hashOf cs, _)) = _ ∧ _
    rw [if_neg (show ¬ (debug = true ∧ _ = 0) from fun c => hd c.1 c.2)]
    exact ⟨_, rfl, rfl, h.max, ⟨rest, rfl⟩, h.fit, h.ascii, h.align, Or.inr rfl⟩

/-! ### Concatenation -/

theorem widen_spec (d k : Nat) (a : List Nat) (pre cs rest r : List Nat) (hf : ∀ c ∈ cs, c < 256 ^ k) (hr : cs.length * d ≤ r.length) :
    widen (a ++ r) d (enc k (pre ++ cs) ++ rest) k cs.length a.length (pre.length * k) =
      some ((a ++ enc d cs) ++ r.drop (cs.length * d)) := by
  induction cs generalizing a pre r with
  | nil => simp [widen, enc_nil]
  | cons c cs ih =>
    rw [List.length_cons, widen]
    have e := unit_enc k pre.length (pre ++ c :: cs) rest (by simp) (by simpa using hf c (by simp))
    rw [List.getElem_append_right (Nat.le_refl _)] at e
    simp only [Nat.sub_self, List.getElem_cons_zero] at e
    rw [e]
    simp only
    rw [List.length_cons, Nat.succ_mul] at hr
    rw [put_next a r (leBytes d c) (by rw [leBytes_length]; omega)]
    simp only
    have := ih (a ++ leBytes d c) (pre ++ [c]) (r.drop (leBytes d c).length) (fun x hx => hf x (by simp [hx]))
      (by rw [List.length_drop, leBytes_length]; omega)
    rw [List.append_assoc pre, List.singleton_append, List.length_append, leBytes_length, List.length_append,
      List.length_singleton, Nat.add_mul, Nat.one_mul] at this
    rw [leBytes_length, this, List.drop_drop, enc_cons, Nat.succ_mul, Nat.add_comm d, List.append_assoc a]

theorem initEmpty_spec (dest s : S) (cs pre r : List Nat) (h : Rep s cs) (hd : dest.mem = enc dest.width.bytes pre ++ r)
    (hr : cs.length * dest.width.bytes ≤ r.length) (hw : s.width.code ≤ dest.width.code) :
    initEmpty dest pre.length s s.len =
      some { dest with mem := enc dest.width.bytes (pre ++ cs) ++ r.drop (cs.length * dest.width.bytes) } := by
  unfold initEmpty
  rw [h.len]
  by_cases h0 : cs.length = 0
  · rw [if_pos h0]
    have : cs = [] := List.length_eq_zero_iff.mp h0
    subst this
    simp [← hd]
  rw [if_neg h0, if_neg (show ¬ cs.length > cs.length by omega)]
  have hlen : (enc dest.width.bytes pre).length = pre.length * dest.width.bytes := enc_length _ _
  by_cases hw' : dest.width = s.width
  · have hm := h.memLen
    rw [if_pos hw', if_pos hm, h.take cs.length (Nat.le_refl _), List.take_length, hd, ← hlen, ← hw',
      put_next _ _ _ (by rw [enc_length]; omega), Option.map_some, enc_length, enc_append]
  · rw [if_neg hw']
    have c : (dest.width = .w16 ∧ s.width = .w8) ∨ (dest.width = .w32 ∧ (s.width = .w8 ∨ s.width = .w16)) := by
      cases h1 : dest.width <;> cases h2 : s.width <;> simp_all [Width.code]
    rw [if_pos c]
    obtain ⟨rest, e⟩ := h.mem
    have := widen_spec dest.width.bytes s.width.bytes (enc dest.width.bytes pre) [] cs rest r h.fit hr
    simp only [List.nil_append, List.length_nil, Nat.zero_mul] at this
    rw [e, hd, ← hlen, this, Option.map_some, enc_append]

theorem addCopy_spec (l : List (S × List Nat)) : ∀ (dest : S) (pre r : List Nat), (∀ p ∈ l, Rep p.1 p.2 ∧ p.1.width.code ≤ dest.width.code) →
    dest.mem = enc dest.width.bytes pre ++ r → ((l.map Prod.snd).flatten.length) * dest.width.bytes ≤ r.length →
    ∃ rest, addCopy dest (l.map Prod.fst) pre.length =
      some { dest with mem := enc dest.width.bytes (pre ++ (l.map Prod.snd).flatten) ++ rest } := by
  induction l with
  | nil => intro dest pre r _ hd _; exact ⟨r, by simp [addCopy, ← hd]⟩
  | cons p l ih =>
    intro dest pre r hl hd hr
    obtain ⟨s, cs⟩ := p
    simp only [List.map_cons, List.flatten_cons, List.length_append, Nat.add_mul] at hr
    obtain ⟨h, hw⟩ := hl (s, cs) (by simp)
    rw [List.map_cons, addCopy, initEmpty_spec dest s cs pre r h hd (by omega) hw]
    simp only
    obtain ⟨rest, e⟩ := ih { dest with mem := enc dest.width.bytes (pre ++ cs) ++ r.drop (cs.length * dest.width.bytes) } (pre ++ cs)
      (r.drop (cs.length * dest.width.bytes)) (fun q hq => hl q (by simp [hq])) rfl
      (by simp only [List.length_drop]; omega)
    rw [List.length_append] at e
    rw [h.len, e]
    exact ⟨rest, by simp⟩

/-- The first loop, as separate facts. -/
theorem addScan_spec (l : List (S × List Nat)) (hl : ∀ p ∈ l, Rep p.1 p.2) :
    addScan (l.map Prod.fst) =
      (l.any (fun p => p.1.width == .w16), l.any (fun p => p.1.width == .w32), l.all (fun p => p.1.ascii),
        (l.map Prod.snd).flatten.length % 4294967296, (l.filter (fun p => p.2 ≠ [])).length,
        (l.filter (fun p => p.2 ≠ [])).getLast?.map Prod.fst) := by
  have gen : ∀ (l : List (S × List Nat)), (∀ p ∈ l, Rep p.1 p.2) → ∀ (a b c : Bool) (n k : Nat) (x : Option S),
      (l.map Prod.fst).foldl (fun (has16, has32, ascii, newLen, non0, last) s =>
        (has16 || s.width == .w16, has32 || s.width == .w32, ascii && s.ascii, (newLen + s.len) % 4294967296,
          if s.len ≠ 0 then non0 + 1 else non0, if s.len ≠ 0 then some s else last)) (a, b, c, n % 4294967296, k, x) =
      (a || l.any (fun p => p.1.width == .w16), b || l.any (fun p => p.1.width == .w32), c && l.all (fun p => p.1.ascii),
        (n + (l.map Prod.snd).flatten.length) % 4294967296, k + (l.filter (fun p => p.2 ≠ [])).length,
        ((l.filter (fun p => p.2 ≠ [])).getLast?.map Prod.fst).or x) := by
    intro l
    induction l with
    | nil => intro _ a b c n k x; simp
    | cons p l ih =>
      intro hl a b c n k x
      have hp := hl p (by simp)
      rw [List.map_cons, List.foldl_cons]
      simp only
      rw [show (n % 4294967296 + p.1.len) % 4294967296 = (n + p.2.length) % 4294967296 by rw [hp.len]; omega,
        ih (fun q hq => hl q (by simp [hq]))]
      have hz : (p.1.len ≠ 0) ↔ p.2 ≠ [] := by rw [hp.len, ne_eq, List.length_eq_zero_iff]
      have hne : ∀ (q : S × List Nat) (m : List (S × List Nat)), ((q :: m).getLast?.map Prod.fst).or x = (m.getLast?.map Prod.fst).or (some q.1) := by
        intro q m
        cases m with
        | nil => rfl
        | cons q' m => simp [List.getLast?_cons]
      by_cases h2 : p.2 ≠ []
      · simp only [if_pos (hz.mpr h2), List.map_cons, List.flatten_cons, List.length_append, List.any_cons, List.all_cons, Bool.or_assoc, Bool.and_assoc]
        rw [List.filter_cons, if_pos (by simpa using h2), hne, List.length_cons, Nat.add_assoc n, Nat.add_assoc k, Nat.add_comm 1]
      · simp only [if_neg (fun c => h2 (hz.mp c)), List.map_cons, List.flatten_cons, List.length_append, List.any_cons, List.all_cons, Bool.or_assoc, Bool.and_assoc]
        rw [List.filter_cons, if_neg (by simpa using h2), Nat.add_assoc n]
  have := gen l hl false false true 0 0 none
  simpa [addScan] using this

theorem flatten_filter (l : List (S × List Nat)) : (l.map Prod.snd).flatten = ((l.filter (fun p => p.2 ≠ [])).map Prod.snd).flatten := by
  induction l with
  | nil => rfl
  | cons p l ih =>
    rw [List.filter_cons]
    by_cases h : p.2 ≠ []
    · rw [if_pos (by simpa using h)]; simp only [List.map_cons, List.flatten_cons, ih]
    · rw [if_neg (by simpa using h)]
      have : p.2 = [] := by simpa using h
      simp only [List.map_cons, List.flatten_cons, ih, this, List.nil_append]

theorem Width.mono (a b : Width) (h : a.code ≤ b.code) : 256 ^ a.bytes ≤ 256 ^ b.bytes := by
  cases a <;> cases b <;> simp [Width.code, Width.bytes] at *

theorem addWidth_spec (l : List (S × List Nat)) (hl : ∀ p ∈ l, Rep p.1 p.2) (w : Width) (a : Bool)
    (h : (w, a) = addWidth (l.any (fun p => p.1.width == .w16)) (l.any (fun p => p.1.width == .w32)) (l.all (fun p => p.1.ascii))) :
    (∀ p ∈ l, p.1.width.code ≤ w.code) ∧ (a = true → w = .w8 ∧ ∀ p ∈ l, p.1.ascii = true) := by
  unfold addWidth at h
  by_cases h32 : l.any (fun p => p.1.width == .w32) = true
  · rw [if_pos h32, Prod.mk.injEq] at h
    obtain ⟨rfl, rfl⟩ := h
    exact ⟨fun p _ => by cases p.1.width <;> decide, by simp⟩
  · rw [if_neg h32] at h
    have n32 : ∀ p ∈ l, p.1.width ≠ .w32 := by
      intro p hp e
      apply h32; rw [List.any_eq_true]; exact ⟨p, hp, by simp [e]⟩
    by_cases h16 : l.any (fun p => p.1.width == .w16) = true
    · rw [if_pos h16, Prod.mk.injEq] at h
      obtain ⟨rfl, rfl⟩ := h
      refine ⟨fun p hp => ?_, by simp⟩
      have := n32 p hp
      cases hw : p.1.width with
      | w8 => decide
      | w16 => decide
      | w32 => exact absurd hw this
    · rw [if_neg h16, Prod.mk.injEq] at h
      obtain ⟨rfl, rfl⟩ := h
      have n16 : ∀ p ∈ l, p.1.width ≠ .w16 := by
        intro p hp e
        apply h16; rw [List.any_eq_true]; exact ⟨p, hp, by simp [e]⟩
      refine ⟨fun p hp => ?_, fun ha => ⟨rfl, fun p hp => ?_⟩⟩
      · have h1 := n32 p hp
        have h2 := n16 p hp
        cases hw : p.1.width with
        | w8 => decide
        | w16 => exact absurd hw h2
        | w32 => exact absurd hw h1
      · rw [List.all_eq_true] at ha; exact ha p hp

theorem addN_many (env : Env) (l : List S) (h : l.length ≠ 1) : addN env l = addMany env l := by
  match l, h with
  | [], _ => rfl
  | [s], h => exact absurd rfl h
  | _ :: _ :: _, _ => rfl

theorem addN_spec (env : Env) (l : List (S × List Nat)) (hl : ∀ p ∈ l, Rep p.1 p.2) (hlt : (l.map Prod.snd).flatten.length < 4294967296) :
    ((l.map Prod.snd).flatten.length ≤ 65535 →
      (∃ r, addN env (l.map Prod.fst) = .ok r ∧ Rep r (l.map Prod.snd).flatten) ∨
      (addN env (l.map Prod.fst) = .raise .outOfMemory ∧ env.mem = false)) ∧
    (65535 < (l.map Prod.snd).flatten.length → addN env (l.map Prod.fst) = .raise .tooLong) := by
  by_cases hone : l.length = 1
  · obtain ⟨p, rfl⟩ := List.length_eq_one_iff.mp hone
    have hp := hl p (by simp)
    have := hp.max
    simp only [List.map_cons, List.map_nil, List.flatten_cons, List.flatten_nil, List.append_nil]
    exact ⟨fun _ => Or.inl ⟨_, rfl, hp⟩, fun c => by omega⟩
  · rw [addN_many env _ (by simpa using hone), addMany, addScan_spec l hl]
    simp only
    rw [Nat.mod_eq_of_lt hlt]
    by_cases h1 : (l.filter (fun p => p.2 ≠ [])).length = 1
    · obtain ⟨p, hp⟩ := List.length_eq_one_iff.mp h1
      have hpm : p ∈ l ∧ p.2 ≠ [] := by
        have : p ∈ l.filter (fun p => p.2 ≠ []) := by rw [hp]; simp
        rw [List.mem_filter] at this; simpa using this
      have e : (l.map Prod.snd).flatten = p.2 := by rw [flatten_filter, hp]; simp
      have hr := hl p hpm.1
      rw [e, hp]
      have hmx := hr.max
      have : p.2.length ≠ 0 := by
        intro c; exact hpm.2 (List.length_eq_zero_iff.mp c)
      rw [if_pos ⟨rfl, this⟩]
      exact ⟨fun _ => Or.inl ⟨_, rfl, hr⟩, fun c => by omega⟩
    · rw [if_neg (fun c => h1 c.1)]
      by_cases h0 : (l.map Prod.snd).flatten.length ≠ 0
      · rw [if_pos h0]
        by_cases hm : (l.map Prod.snd).flatten.length ≤ 65535
        · refine ⟨fun _ => ?_, fun c => by omega⟩
          rw [if_pos hm]
          obtain ⟨w, a, hwa⟩ : ∃ w a, (w, a) = addWidth (l.any (fun p => p.1.width == .w16)) (l.any (fun p => p.1.width == .w32))
              (l.all (fun p => p.1.ascii)) := ⟨_, _, rfl⟩
          rw [← hwa]
          obtain ⟨q1, q2⟩ := addWidth_spec l hl w a hwa
          simp only
          rcases newEmpty_spec env (l.map Prod.snd).flatten.length w a (by omega) hm with ⟨en, hn⟩ | ⟨m, en, hn⟩
          · right; rw [en]; exact ⟨rfl, hn⟩
          · left
            rw [en]
            simp only
            obtain ⟨rest, ec⟩ := addCopy_spec l ⟨w, a, .inObj, (l.map Prod.snd).flatten.length, 0, 8 * env.base, m⟩ [] m
              (fun p hp => ⟨hl p hp, q1 p hp⟩) rfl hn
            rw [List.length_nil] at ec
            rw [ec]
            refine ⟨_, rfl, .fresh _ _ _ _ _ (l.map Prod.snd).flatten rest rfl hm rfl ?_ ?_⟩
            · intro c hc
              rw [List.mem_flatten] at hc
              obtain ⟨cs, hcs, hc⟩ := hc
              rw [List.mem_map] at hcs
              obtain ⟨p, hp, rfl⟩ := hcs
              exact Nat.lt_of_lt_of_le ((hl p hp).fit c hc) (Width.mono _ _ (q1 p hp))
            · intro ha
              obtain ⟨r1, r2⟩ := q2 ha
              refine ⟨r1, fun c hc => ?_⟩
              rw [List.mem_flatten] at hc
              obtain ⟨cs, hcs, hc⟩ := hc
              rw [List.mem_map] at hcs
              obtain ⟨p, hp, rfl⟩ := hcs
              exact ((hl p hp).ascii (r2 p hp)).2 c hc
        · rw [if_neg hm]
          exact ⟨fun c => absurd c hm, fun _ => rfl⟩
      · rw [if_neg h0]
        have e : (l.map Prod.snd).flatten = [] := List.length_eq_zero_iff.mp (by omega)
        rw [e]
        exact ⟨fun _ => Or.inl ⟨_, rfl, .empty⟩, by simp⟩

/-! ### Slices -/

theorem range_spec (n : Nat) (b e : Int) :
    0 ≤ (range n b e).1 ∧ (range n b e).1 ≤ (range n b e).2 ∧
    (((range n b e).1 < (range n b e).2) → (range n b e).2 ≤ n) ∧
    (range n b e).1 = (if b < 0 then max 0 (b + n) else b) ∧
    (range n b e).2 = max (range n b e).1 (if e < 0 then e + n else min e n) := by
  unfold range
  simp only
  refine ⟨?_, ?_, ?_, ?_, ?_⟩ <;> (repeat' split) <;> omega

theorem slice_spec (env : Env) (s : S) (cs : List Nat) (b e : Int) (h : Rep s cs) :
    (∃ r, slice env s b e = .ok r ∧ Rep r ((cs.take (range cs.length b e).2.toNat).drop (range cs.length b e).1.toNat)) ∨
    (slice env s b e = .raise .outOfMemory ∧ env.mem = false) := by
  unfold slice
  rw [h.len]
  by_cases h0 : cs.length = 0
  · rw [if_pos h0]
    have : cs = [] := List.length_eq_zero_iff.mp h0
    subst this
    exact Or.inl ⟨_, rfl, by simpa using Rep.empty⟩
  rw [if_neg h0]
  obtain ⟨r1, r2, r3, -, -⟩ := range_spec cs.length b e
  generalize range cs.length b e = p at *
  obtain ⟨B, E⟩ := p
  simp only at r1 r2 r3 ⊢
  have hmax := h.max
  obtain ⟨B, rfl⟩ : ∃ k : Nat, B = k := ⟨B.toNat, by omega⟩
  obtain ⟨E, rfl⟩ : ∃ k : Nat, E = k := ⟨E.toNat, by omega⟩
  have hn : ((E : Int) - B).toNat = E - B := by omega
  rw [hn, if_neg (show ¬ E - B > 65535 by omega)]
  simp only [Int.toNat_natCast]
  by_cases hall : E - B = cs.length
  · rw [if_pos hall]
    left
    refine ⟨s, rfl, ?_⟩
    have hB : B = 0 := by omega
    rw [hB, List.drop_zero, List.take_of_length_le (by omega)]; exact h
  rw [if_neg hall]
  by_cases hz : E - B = 0
  · rw [if_pos hz]
    left
    refine ⟨_, rfl, ?_⟩
    rw [List.drop_take, hz, List.take_zero]; exact .empty
  rw [if_neg hz]
  have hE : E ≤ cs.length := by have := r3 (by omega); omega
  obtain ⟨rest, hd⟩ := h.drop B (by omega)
  have hlen : ((cs.take E).drop B).length = E - B := by rw [List.length_drop, List.length_take]; omega
  have hsub : ∀ c, c ∈ (cs.take E).drop B → c ∈ cs := fun c hc => List.mem_of_mem_take (List.mem_of_mem_drop hc)
  have hfit : ∀ c ∈ (cs.take E).drop B, c < 256 ^ s.width.bytes := fun c hc => h.fit c (hsub c hc)
  have hasc : s.ascii = true → s.width = .w8 ∧ ∀ c ∈ (cs.take E).drop B, c < 128 :=
    fun ha => ⟨(h.ascii ha).1, fun c hc => (h.ascii ha).2 c (hsub c hc)⟩
  by_cases hs : (E - B) <<< s.width.code ≤ 16
  · rw [if_pos hs]
    rcases newEmpty_spec env (E - B) s.width s.ascii (by omega) (by omega) with ⟨en, hm⟩ | ⟨m, en, hm⟩
    · right; rw [en]; exact ⟨rfl, hm⟩
    · left
      rw [en]
      simp only
      have hml := h.memLen
      have : B * s.width.bytes + (E - B) * s.width.bytes ≤ s.mem.length := by
        rw [← Nat.add_mul, show B + (E - B) = E by omega]
        exact Nat.le_trans (Nat.mul_le_mul_right _ hE) hml
      rw [if_pos this, hd, List.take_append_of_le_length (by rw [enc_length, List.length_drop]; exact Nat.mul_le_mul_right _ (by omega)), enc_take,
        ← List.drop_take]
      have hp := put_next [] m (enc s.width.bytes ((cs.take E).drop B)) (by rw [enc_length, hlen]; exact hm)
      simp only [List.nil_append, List.length_nil] at hp
      rw [hp]
      exact ⟨_, rfl, .fresh _ _ _ _ _ _ _ hlen.symm (by omega) rfl hfit hasc⟩
  · rw [if_neg hs]
    cases hm : env.mem with
    | false => right; exact ⟨rfl, rfl⟩
    | true =>
      left
      simp only [if_true]
      refine ⟨_, rfl, hlen.symm, by omega, ?_, hfit, hasc, ?_, Or.inl rfl⟩
      · simp only
        have : cs.drop B = (cs.take E).drop B ++ cs.drop E := by
          rw [List.drop_take]
          conv => lhs; rw [← List.take_append_drop (E - B) (cs.drop B)]
          rw [List.drop_drop, show B + (E - B) = E by omega]
        rw [hd, this, enc_append, List.append_assoc]
        exact ⟨_, rfl⟩
      · simp only
        rw [Nat.add_mul_mod_self_right]; exact h.align

/-! ### Reversal, repetition, case -/

theorem revLoop_spec (n : Nat) (len : Nat) (cs : List Nat) : ∀ (pre a r tail src rest : List Nat),
    src = enc n (pre ++ cs) ++ rest → (∀ c ∈ cs, c < 256 ^ n) → len = pre.length + cs.length → r.length = cs.length * n →
    a = enc n pre.reverse →
    revLoop (r ++ (a ++ tail)) src n len cs.length pre.length = some (enc n (pre ++ cs).reverse ++ tail) := by
  induction cs with
  | nil =>
    intro pre a r tail src rest _ _ _ hr ha
    have : r = [] := List.length_eq_zero_iff.mp (by simpa using hr)
    subst this; subst ha
    simp [revLoop]
  | cons c cs ih =>
    intro pre a r tail src rest hs hf hl hr ha
    rw [List.length_cons, revLoop]
    have e := unit_enc n pre.length (pre ++ c :: cs) rest (by simp) (by simpa using hf c (by simp))
    rw [List.getElem_append_right (Nat.le_refl _)] at e
    simp only [Nat.sub_self, List.getElem_cons_zero] at e
    rw [hs, e]
    simp only
    rw [List.length_cons] at hl hr
    rw [Nat.succ_mul] at hr
    rw [show len - 1 - pre.length = cs.length by omega, put_prev _ _ _ _ (by rw [leBytes_length]; omega)]
    simp only
    have := ih (pre ++ [c]) (leBytes n c ++ a) (r.take (cs.length * n)) tail (enc n (pre ++ c :: cs) ++ rest) rest
      (by simp) (fun d hd => hf d (by simp [hd])) (by simp; omega) (by rw [List.length_take]; omega)
      (by rw [ha, List.reverse_append, List.reverse_singleton, List.singleton_append, enc_cons])
    rw [List.length_append, List.length_singleton, List.append_assoc (leBytes n c), List.append_assoc pre, List.singleton_append] at this
    exact this

theorem reverse_spec (env : Env) (s : S) (cs : List Nat) (h : Rep s cs) :
    (∃ r, reverse env s = .ok r ∧ Rep r cs.reverse) ∨ (reverse env s = .raise .outOfMemory ∧ env.mem = false) := by
  unfold reverse
  rw [h.len]
  have hmax := h.max
  by_cases h2 : cs.length < 2
  · rw [if_pos h2]
    left
    refine ⟨s, rfl, ?_⟩
    have : cs.reverse = cs := by
      match cs, h2 with
      | [], _ => rfl
      | [c], _ => rfl
    rw [this]; exact h
  · rw [if_neg h2]
    rcases newEmpty_spec env cs.length s.width s.ascii (by omega) hmax with ⟨en, hm⟩ | ⟨m, en, hm⟩
    · right; rw [en]; exact ⟨rfl, hm⟩
    · left
      rw [en]
      simp only
      obtain ⟨rest, e⟩ := h.mem
      have := revLoop_spec s.width.bytes cs.length cs [] [] (m.take (cs.length * s.width.bytes)) (m.drop (cs.length * s.width.bytes))
        s.mem rest (by simpa using e) h.fit (by simp) (by rw [List.length_take]; omega) rfl
      rw [List.nil_append, List.take_append_drop, List.length_nil, List.nil_append] at this
      rw [this]
      exact ⟨_, rfl, .fresh _ _ _ _ _ _ _ (by simp) hmax rfl (fun c hc => h.fit c (by simpa using hc))
        (fun ha => ⟨(h.ascii ha).1, fun c hc => (h.ascii ha).2 c (by simpa using hc)⟩)⟩

theorem repLoop_spec (bs : List Nat) (n : Nat) : ∀ (a r : List Nat), n * bs.length ≤ r.length →
    repLoop (a ++ r) bs n a.length = some (a ++ (List.replicate n bs).flatten ++ r.drop (n * bs.length)) := by
  induction n with
  | zero => intro a r _; simp [repLoop]
  | succ n ih =>
    intro a r hr
    rw [Nat.succ_mul] at hr
    rw [repLoop, put_next a r bs (by omega)]
    simp only
    have := ih (a ++ bs) (r.drop bs.length) (by rw [List.length_drop]; omega)
    rw [List.length_append] at this
    rw [this, List.drop_drop, Nat.succ_mul, Nat.add_comm bs.length, List.replicate_succ, List.flatten_cons, List.append_assoc a]

theorem enc_flatten (k n : Nat) (cs : List Nat) : enc k (List.replicate n cs).flatten = (List.replicate n (enc k cs)).flatten := by
  induction n with
  | zero => rfl
  | succ n ih => simp only [List.replicate_succ, List.flatten_cons, enc_append, ih]

theorem length_flatten_replicate {α : Type} (n : Nat) (l : List α) : (List.replicate n l).flatten.length = n * l.length := by
  induction n with
  | zero => simp
  | succ n ih => rw [List.replicate_succ, List.flatten_cons, List.length_append, ih, Nat.succ_mul]; omega

theorem mem_flatten_replicate {α : Type} (n : Nat) (l : List α) (x : α) (h : x ∈ (List.replicate n l).flatten) : x ∈ l := by
  rw [List.mem_flatten] at h
  obtain ⟨m, hm, hx⟩ := h
  rw [List.mem_replicate] at hm
  rw [← hm.2]; exact hx

theorem repeat_spec (env : Env) (s : S) (cs : List Nat) (n : Nat) (h : Rep s cs) :
    (n * cs.length ≤ 65535 →
      (∃ r, repeatStr env s n = .ok r ∧ Rep r (List.replicate n cs).flatten) ∨ (repeatStr env s n = .raise .outOfMemory ∧ env.mem = false)) ∧
    (65535 < n * cs.length → repeatStr env s n = .raise .tooManyRepeats) := by
  unfold repeatStr
  rw [h.len]
  have hmax := h.max
  by_cases h0 : cs.length = 0 ∨ n = 0
  · rw [if_pos h0]
    have e : (List.replicate n cs).flatten = [] := by
      apply List.length_eq_zero_iff.mp
      rw [length_flatten_replicate]
      rcases h0 with c | c <;> simp [c]
    have hc : n * cs.length = 0 := by
      rcases h0 with c | c <;> simp [c]
    rw [e, hc]
    exact ⟨fun _ => Or.inl ⟨_, rfl, .empty⟩, by simp⟩
  rw [if_neg h0]
  have hne : cs ≠ [] := fun c => h0 (Or.inl (by simp [c]))
  by_cases h1 : n = 1
  · subst h1
    rw [if_pos rfl]
    exact ⟨fun _ => Or.inl ⟨s, rfl, by simpa using h⟩, fun c => by omega⟩
  rw [if_neg h1]
  by_cases hb : n ≤ 65535
  · have hlt : cs.length * n < 4294967296 := by
      have : cs.length * n ≤ 65535 * 65535 := Nat.mul_le_mul hmax hb
      omega
    rw [Nat.mod_eq_of_lt hlt, Nat.mul_comm n]
    by_cases hc : cs.length * n ≤ 65535
    · refine ⟨fun _ => ?_, fun c => by omega⟩
      rw [if_neg (by rintro (c | c) <;> omega)]
      have hpos : 0 < cs.length * n := Nat.mul_pos (by omega) (by omega)
      rcases newEmpty_spec env (cs.length * n) s.width s.ascii hpos hc with ⟨en, hm⟩ | ⟨m, en, hm⟩
      · right; rw [en]; exact ⟨rfl, hm⟩
      · left
        rw [en]
        simp only
        rw [if_pos h.memLen, h.take cs.length (Nat.le_refl _), List.take_length]
        have hl : n * (enc s.width.bytes cs).length = cs.length * n * s.width.bytes := by
          rw [enc_length, Nat.mul_comm cs.length n, Nat.mul_assoc]
        have := repLoop_spec (enc s.width.bytes cs) n [] m (by rw [hl]; exact hm)
        simp only [List.nil_append, List.length_nil] at this
        rw [this, ← enc_flatten]
        exact ⟨_, rfl, .fresh _ _ _ _ _ _ _ (by rw [length_flatten_replicate, Nat.mul_comm]) hc rfl
          (fun c hc => h.fit c (mem_flatten_replicate _ _ _ hc))
          (fun ha => ⟨(h.ascii ha).1, fun c hc => (h.ascii ha).2 c (mem_flatten_replicate _ _ _ hc)⟩)⟩
    · rw [if_pos (Or.inr (by omega))]
      exact ⟨fun c => absurd c hc, fun _ => rfl⟩
  · rw [if_pos (Or.inl (by omega))]
    refine ⟨fun c => ?_, fun _ => rfl⟩
    have : n * 1 ≤ n * cs.length := Nat.mul_le_mul_left _ (by omega)
    omega

theorem caseLoop_spec (conv : Nat → Nat) (w : Width) (cs : List Nat) : ∀ (a pre r rest : List Nat), (∀ c ∈ cs, c < 256 ^ w.bytes) →
    cs.length * w.bytes ≤ r.length → a.length = pre.length * w.bytes →
    caseLoop conv w (a ++ r) (enc w.bytes (pre ++ cs) ++ rest) cs.length (pre.length * w.bytes) =
      some ((a ++ enc w.bytes (cs.map fun c => if w = .w32 ∧ ¬ c < 0x10000 then c else conv c)) ++ r.drop (cs.length * w.bytes)) := by
  induction cs with
  | nil => intro a pre r rest _ _ _; simp [caseLoop, enc_nil]
  | cons c cs ih =>
    intro a pre r rest hf hr ha
    rw [List.length_cons, caseLoop]
    have e := unit_enc w.bytes pre.length (pre ++ c :: cs) rest (by simp) (by simpa using hf c (by simp))
    rw [List.getElem_append_right (Nat.le_refl _)] at e
    simp only [Nat.sub_self, List.getElem_cons_zero] at e
    rw [e]
    simp only
    rw [List.length_cons, Nat.succ_mul] at hr
    rw [← ha, put_next a r _ (by rw [leBytes_length]; omega)]
    simp only
    have := ih (a ++ leBytes w.bytes (if w = .w32 ∧ ¬ c < 0x10000 then c else conv c)) (pre ++ [c]) (r.drop w.bytes) rest
      (fun x hx => hf x (by simp [hx])) (by rw [List.length_drop]; omega)
      (by rw [List.length_append, leBytes_length, ha, List.length_append, List.length_singleton, Nat.add_mul, Nat.one_mul])
    rw [List.append_assoc pre, List.singleton_append, List.length_append,
      List.length_singleton, Nat.add_mul, Nat.one_mul, ← ha] at this
    rw [leBytes_length, this, List.drop_drop, List.map_cons, enc_cons, Nat.succ_mul, Nat.add_comm w.bytes, List.append_assoc a]

/-- Stored modulo the width. -/
theorem enc_mod (n : Nat) (cs : List Nat) : enc n (cs.map (· % 256 ^ n)) = enc n cs := by
  have : ∀ n c, leBytes n (c % 256 ^ n) = leBytes n c := by
    intro n
    induction n with
    | zero => intro c; rfl
    | succ n ih =>
      intro c
      rw [leBytes, leBytes, Nat.pow_succ']
      rw [Nat.mod_mul_right_mod, Nat.mod_mul_right_div_self, ih]
  induction cs with
  | nil => rfl
  | cons c cs ih => rw [List.map_cons, enc_cons, enc_cons, ih, this]

theorem changeCase_spec (env : Env) (conv : Nat → Nat) (s : S) (cs : List Nat) (h : Rep s cs)
    (hasc : s.ascii = true → ∀ c ∈ cs, conv c % 256 < 128) :
    (∃ r, changeCase env conv s = .ok r ∧
      Rep r (cs.map fun c => (if s.width = .w32 ∧ ¬ c < 0x10000 then c else conv c) % 256 ^ s.width.bytes)) ∨
    (changeCase env conv s = .raise .outOfMemory ∧ env.mem = false) := by
  unfold changeCase
  rw [h.len]
  have hmax := h.max
  by_cases h0 : cs.length = 0
  · rw [if_pos h0]
    have : cs = [] := List.length_eq_zero_iff.mp h0
    subst this
    exact Or.inl ⟨_, rfl, .empty⟩
  · rw [if_neg h0]
    rcases newEmpty_spec env cs.length s.width s.ascii (by omega) hmax with ⟨en, hm⟩ | ⟨m, en, hm⟩
    · right; rw [en]; exact ⟨rfl, hm⟩
    · left
      rw [en]
      simp only
      obtain ⟨rest, e⟩ := h.mem
      have := caseLoop_spec conv s.width cs [] [] m rest h.fit hm (by simp)
      simp only [List.nil_append, List.length_nil, Nat.zero_mul] at this
      rw [e, this, ← enc_mod, List.map_map]
      refine ⟨_, rfl, .fresh _ _ _ _ _ _ _ (by simp) hmax rfl ?_ ?_⟩
      · intro c hc
        rw [List.mem_map] at hc
        obtain ⟨d, _, rfl⟩ := hc
        exact Nat.mod_lt _ (Nat.pow_pos (by decide))
      · intro ha
        refine ⟨(h.ascii ha).1, fun c hc => ?_⟩
        rw [List.mem_map] at hc
        obtain ⟨d, hd, rfl⟩ := hc
        have hw := (h.ascii ha).1
        simp only [Function.comp, hw, Width.bytes]
        simpa using hasc ha d hd

theorem codesLoop_spec (n : Nat) (l : List Int) : ∀ (a r : List Nat), l.length * n ≤ r.length →
    codesLoop (a ++ r) n l a.length = some ((a ++ enc n (l.map Int.toNat)) ++ r.drop (l.length * n)) := by
  induction l with
  | nil => intro a r _; simp [codesLoop, enc_nil]
  | cons c l ih =>
    intro a r hr
    rw [List.length_cons, Nat.succ_mul] at hr
    rw [codesLoop, put_next a r _ (by rw [leBytes_length]; omega)]
    simp only
    have := ih (a ++ leBytes n c.toNat) (r.drop n) (by rw [List.length_drop]; omega)
    rw [List.length_append, leBytes_length] at this
    rw [leBytes_length, this, List.drop_drop, List.map_cons, enc_cons, List.length_cons, Nat.succ_mul, Nat.add_comm n, List.append_assoc a]

theorem or_foldl_le (l : List Int) : ∀ h, h ≤ l.foldl (fun h c => h ||| c.toNat) h ∧
    ∀ c ∈ l, c.toNat ≤ l.foldl (fun h c => h ||| c.toNat) h := by
  induction l with
  | nil => intro h; exact ⟨Nat.le_refl _, by simp⟩
  | cons c l ih =>
    intro h
    rw [List.foldl_cons]
    obtain ⟨h1, h2⟩ := ih (h ||| c.toNat)
    refine ⟨Nat.le_trans Nat.left_le_or h1, fun d hd => ?_⟩
    rcases List.mem_cons.mp hd with rfl | hd
    · exact Nat.le_trans Nat.right_le_or h1
    · exact h2 d hd

theorem or_foldl_lt (l : List Int) (hl : ∀ c ∈ l, c.toNat < 2 ^ 32) : ∀ h, h < 2 ^ 32 → l.foldl (fun h c => h ||| c.toNat) h < 2 ^ 32 := by
  induction l with
  | nil => intro h hh; exact hh
  | cons c l ih =>
    intro h hh
    rw [List.foldl_cons]
    exact ih (fun d hd => hl d (by simp [hd])) _ (Nat.or_lt_two_pow hh (hl c (by simp)))

theorem fromCodes_spec (env : Env) (l : List Int) :
    (65535 < l.length → fromCodes env l = .raise .tooLarge) ∧
    (l.length ≤ 65535 → (∃ c ∈ l, c < 0 ∨ 0x1FFFFF < c) → fromCodes env l = .raise .badCode) ∧
    (l.length ≤ 65535 → (∀ c ∈ l, 0 ≤ c ∧ c ≤ 0x1FFFFF) →
      (∃ r, fromCodes env l = .ok r ∧ Rep r (l.map Int.toNat)) ∨ (fromCodes env l = .raise .outOfMemory ∧ env.mem = false)) := by
  unfold fromCodes
  refine ⟨fun h => if_pos h, fun h hc => ?_, fun h hc => ?_⟩
  · rw [if_neg (by omega), if_pos]
    rw [List.any_eq_true]
    obtain ⟨c, h1, h2⟩ := hc
    exact ⟨c, h1, by simpa using h2⟩
  · have hany : ¬ l.any (fun c => c < 0 || c > 0x1FFFFF) = true := by
      rw [List.any_eq_true]
      rintro ⟨c, h1, h2⟩
      have := hc c h1
      simp at h2
      omega
    rw [if_neg (by omega), if_neg hany]
    by_cases h0 : l.length = 0
    · rw [if_pos h0]
      have : l = [] := List.length_eq_zero_iff.mp h0
      subst this
      exact Or.inl ⟨_, rfl, .empty⟩
    rw [if_neg h0]
    obtain ⟨-, hle⟩ := or_foldl_le l 0
    have hlt := or_foldl_lt l (fun c h1 => by have := hc c h1; omega) 0 (by decide)
    generalize l.foldl (fun h c => h ||| c.toNat) 0 = g at hle hlt ⊢
    obtain ⟨f1, f2⟩ := sizeFromMaxCode_fit g hlt
    rcases newEmpty_spec env l.length (sizeFromMaxCode g).1 (sizeFromMaxCode g).2 (by omega) h with ⟨en, hm⟩ | ⟨m, en, hm⟩
    · right; rw [en]; exact ⟨rfl, hm⟩
    · left
      rw [en]
      simp only
      have := codesLoop_spec (sizeFromMaxCode g).1.bytes l [] m hm
      simp only [List.nil_append, List.length_nil] at this
      rw [this]
      refine ⟨_, rfl, .fresh _ _ _ _ _ _ _ (by simp) h rfl ?_ ?_⟩
      · intro c h1
        rw [List.mem_map] at h1
        obtain ⟨d, h1, rfl⟩ := h1
        exact Nat.lt_of_le_of_lt (hle d h1) f1
      · intro ha
        obtain ⟨g1, g2⟩ := f2 ha
        refine ⟨g1, fun c h1 => ?_⟩
        rw [List.mem_map] at h1
        obtain ⟨d, h1, rfl⟩ := h1
        exact Nat.lt_of_le_of_lt (hle d h1) g2

end Verif.Str
