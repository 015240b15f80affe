import Verif.Str.Model

/-! Strings hold character lists. -/
namespace Verif.Str

/-- Characters as stored in units of `n` bytes. -/
def enc (n : Nat) (cs : List Nat) : List Nat := cs.flatMap (leBytes n)

theorem leBytes_length (n c : Nat) : (leBytes n c).length = n := by
  induction n generalizing c with
  | zero => rfl
  | succ n ih => simp [leBytes, ih]

theorem leVal_leBytes (n c : Nat) : leVal (leBytes n c) = c % 256 ^ n := by
  induction n generalizing c with
  | zero => simp [leBytes, leVal, Nat.mod_one]
  | succ n ih => rw [leBytes, leVal, ih, Nat.pow_succ', Nat.mod_mul]

theorem leBytes_lt (n c : Nat) : ∀ b ∈ leBytes n c, b < 256 := by
  induction n generalizing c with
  | zero => simp [leBytes]
  | succ n ih =>
    intro b hb
    rw [leBytes, List.mem_cons] at hb
    rcases hb with rfl | hb
    · omega
    · exact ih _ b hb

theorem leVal_inj (l m : List Nat) (hl : ∀ b ∈ l, b < 256) (hm : ∀ b ∈ m, b < 256) (h : l.length = m.length)
    (e : leVal l = leVal m) : l = m := by
  induction l generalizing m with
  | nil => cases m with
    | nil => rfl
    | cons => simp at h
  | cons a l ih => cases m with
    | nil => simp at h
    | cons b m =>
      simp only [leVal] at e
      have ha := hl a (by simp)
      have hb := hm b (by simp)
      have : a = b := by omega
      subst this
      rw [ih m (fun x hx => hl x (by simp [hx])) (fun x hx => hm x (by simp [hx])) (by simpa using h) (by omega)]

theorem leVal_lt (l : List Nat) (hl : ∀ b ∈ l, b < 256) : leVal l < 256 ^ l.length := by
  induction l with
  | nil => simp [leVal]
  | cons a l ih =>
    have := ih (fun x hx => hl x (by simp [hx]))
    have ha := hl a (by simp)
    rw [leVal, List.length_cons, Nat.pow_succ']
    omega

theorem enc_nil (n : Nat) : enc n [] = [] := rfl

theorem enc_cons (n c : Nat) (cs : List Nat) : enc n (c :: cs) = leBytes n c ++ enc n cs := rfl

theorem enc_append (n : Nat) (a b : List Nat) : enc n (a ++ b) = enc n a ++ enc n b := by
  simp [enc]

theorem enc_length (n : Nat) (cs : List Nat) : (enc n cs).length = cs.length * n := by
  induction cs with
  | nil => simp [enc_nil]
  | cons c cs ih => rw [enc_cons, List.length_append, ih, leBytes_length, List.length_cons, Nat.succ_mul]; omega

theorem enc_lt (n : Nat) (cs : List Nat) : ∀ b ∈ enc n cs, b < 256 := by
  intro b hb
  rw [enc, List.mem_flatMap] at hb
  obtain ⟨c, _, hc⟩ := hb
  exact leBytes_lt n c b hc

theorem enc_drop (n i : Nat) (cs : List Nat) : (enc n cs).drop (i * n) = enc n (cs.drop i) := by
  induction cs generalizing i with
  | nil => simp [enc_nil]
  | cons c cs ih => cases i with
    | zero => simp
    | succ i =>
      rw [enc_cons, List.drop_append, leBytes_length, Nat.succ_mul, Nat.add_sub_cancel, ih, List.drop_succ_cons,
        List.drop_of_length_le (by rw [leBytes_length]; omega), List.nil_append]

theorem enc_take (n i : Nat) (cs : List Nat) : (enc n cs).take (i * n) = enc n (cs.take i) := by
  induction cs generalizing i with
  | nil => simp [enc_nil]
  | cons c cs ih => cases i with
    | zero => simp [enc_nil]
    | succ i =>
      rw [enc_cons, List.take_append, leBytes_length, Nat.succ_mul, Nat.add_sub_cancel, ih, List.take_succ_cons, enc_cons,
        List.take_of_length_le (by rw [leBytes_length]; omega)]

theorem Width.pos (w : Width) : 0 < w.bytes := by cases w <;> decide

/-- Reading a character. -/
theorem unit_enc (n i : Nat) (cs rest : List Nat) (h : i < cs.length) (hf : cs[i] < 256 ^ n) :
    unit (enc n cs ++ rest) n (i * n) = some cs[i] := by
  unfold unit
  have hl := enc_length n cs
  have h1 : (i + 1) * n ≤ cs.length * n := Nat.mul_le_mul_right n h
  rw [Nat.succ_mul] at h1
  rw [if_pos (by rw [List.length_append]; omega), List.drop_append, enc_drop, List.drop_eq_getElem_cons h, enc_cons,
    List.append_assoc, List.take_append_of_le_length (by rw [leBytes_length]; omega),
    List.take_of_length_le (by rw [leBytes_length]; omega), leVal_leBytes, Nat.mod_eq_of_lt hf]

/-- Writing right after what has been written. -/
theorem put_next (a r x : List Nat) (h : x.length ≤ r.length) : put (a ++ r) a.length x = some ((a ++ x) ++ r.drop x.length) := by
  unfold put
  rw [if_pos (by rw [List.length_append]; omega), List.take_left', List.drop_append, List.drop_of_length_le (by omega),
    Nat.add_sub_cancel_left, List.nil_append]
  rfl

/-- Writing right before what has been written. -/
theorem put_prev (a r x : List Nat) (i : Nat) (h : i + x.length = r.length) : put (r ++ a) i x = some (r.take i ++ (x ++ a)) := by
  unfold put
  rw [if_pos (by rw [List.length_append]; omega), List.take_append_of_le_length (by omega), List.drop_append,
    show List.drop (i + x.length) r = [] from List.drop_of_length_le (by omega), List.nil_append,
    show i + x.length - r.length = 0 by omega, List.drop_zero, List.append_assoc]

/-- The hash of a character sequence: for each character, multiply by 33 modulo 2^32 and take the exclusive or. -/
def hashOf (cs : List Nat) : Nat := cs.foldl (fun h c => Nat.xor (h * 33 % 4294967296) c) 5381

/-- String `s` holds the characters `cs`. -/
structure Rep (s : S) (cs : List Nat) : Prop where
  len   : s.len = cs.length
  max   : cs.length ≤ 65535
  mem   : ∃ rest, s.mem = enc s.width.bytes cs ++ rest
  fit   : ∀ c ∈ cs, c < 256 ^ s.width.bytes
  ascii : s.ascii = true → s.width = .w8 ∧ ∀ c ∈ cs, c < 128
  align : s.addr % s.width.bytes = 0
  hash  : s.hash = 0 ∨ s.hash = hashOf cs

theorem Rep.unit {s : S} {cs : List Nat} (h : Rep s cs) (i : Nat) (hi : i < cs.length) :
    unit s.mem s.width.bytes (i * s.width.bytes) = some cs[i] := by
  obtain ⟨rest, e⟩ := h.mem
  rw [e]
  exact unit_enc _ _ _ _ hi (h.fit _ (List.getElem_mem hi))

theorem Rep.empty : Rep empty [] :=
  ⟨rfl, by simp, ⟨[], rfl⟩, by simp, by simp [Str.empty], rfl, Or.inl rfl⟩

theorem Rep.memLen {s : S} {cs : List Nat} (h : Rep s cs) : cs.length * s.width.bytes ≤ s.mem.length := by
  obtain ⟨rest, e⟩ := h.mem
  rw [e, List.length_append, enc_length]; omega

theorem Rep.take {s : S} {cs : List Nat} (h : Rep s cs) (i : Nat) (hi : i ≤ cs.length) :
    s.mem.take (i * s.width.bytes) = enc s.width.bytes (cs.take i) := by
  obtain ⟨rest, e⟩ := h.mem
  rw [e, List.take_append_of_le_length (by rw [enc_length]; exact Nat.mul_le_mul_right _ hi), enc_take]

theorem Rep.drop {s : S} {cs : List Nat} (h : Rep s cs) (i : Nat) (hi : i ≤ cs.length) :
    ∃ rest, s.mem.drop (i * s.width.bytes) = enc s.width.bytes (cs.drop i) ++ rest := by
  obtain ⟨rest, e⟩ := h.mem
  refine ⟨rest, ?_⟩
  rw [e, List.drop_append_of_le_length (by rw [enc_length]; exact Nat.mul_le_mul_right _ hi), enc_drop]

/-- What `new_empty_string` returns. -/
theorem newEmpty_spec (env : Env) (n : Nat) (w : Width) (a : Bool) (h0 : 0 < n) (h1 : n ≤ 65535) :
    (newEmpty env n w a = .raise .outOfMemory ∧ env.mem = false) ∨
    (∃ m, newEmpty env n w a = .ok ⟨w, a, .inObj, n, 0, 8 * env.base, m⟩ ∧ n * w.bytes ≤ m.length) := by
  unfold newEmpty
  rw [if_neg (by omega)]
  cases hm : env.mem with
  | false => left; exact ⟨rfl, rfl⟩
  | true =>
    right
    refine ⟨_, rfl, ?_⟩
    rw [List.length_map, List.length_range, Nat.shiftLeft_eq]
    apply Nat.mul_le_mul_left
    cases w <;> cases a <;> decide

/-- A freshly written string. -/
theorem Rep.fresh (w : Width) (a : Bool) (n base : Nat) (m cs rest : List Nat) (hn : n = cs.length) (h1 : n ≤ 65535)
    (hm : m = enc w.bytes cs ++ rest) (hf : ∀ c ∈ cs, c < 256 ^ w.bytes) (ha : a = true → w = .w8 ∧ ∀ c ∈ cs, c < 128) :
    Rep ⟨w, a, .inObj, n, 0, 8 * base, m⟩ cs :=
  ⟨hn, by omega, ⟨rest, hm⟩, hf, ha, by cases w <;> simp [Width.bytes] <;> omega, Or.inl rfl⟩

end Verif.Str
