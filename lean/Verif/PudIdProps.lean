import Verif.PudIdModel
/-
C124: a configured node id comes out at the receivers of the pud plugin as it was.
-/
namespace Verif.PudId

/-! ### Specification -/

/-- A string of digits (lower case in base 16). -/
def AllDigits (base : Nat) (s : List Nat) : Prop := ∀ c ∈ s, ∃ d, d < base ∧ c = charOf d

/-- The number a string of digits stands for. -/
def value (base : Nat) (s : List Nat) : Nat :=
  s.foldl (fun acc c => acc * base + (if c ≤ 57 then c - 48 else c - 87)) 0

/-- The usual notation: digits, without leading zeros. -/
def Canon (base : Nat) (s : List Nat) : Prop :=
  s ≠ [] ∧ AllDigits base s ∧ (s.head? = some 48 → s.length = 1)

/-- The bytes a text of pairs of hexadecimal digits with separators stands for. -/
def unpair : List Nat → List Nat
  | a :: b :: _ :: r => (16 * (if a ≤ 57 then a - 48 else a - 87) + (if b ≤ 57 then b - 48 else b - 87)) :: unpair r
  | [a, b] => [16 * (if a ≤ 57 then a - 48 else a - 87) + (if b ≤ 57 then b - 48 else b - 87)]
  | _ => []

/-- The ranges that wireFormat.h documents: digits (1, 2, 7, 192, 193), bits (8) or
bounds (194). -/
def documented (typ : Nat) : Option (Nat × Nat) :=
  if typ = 1 then some (0, 10 ^ 15 - 1)
  else if typ = 2 then some (0, 10 ^ 17 - 1)
  else if typ = 7 then some (0, 10 ^ 9 - 1)
  else if typ = 8 then some (0, 2 ^ 24 - 1)
  else if typ = 192 then some (0, 10 ^ 7 - 1)
  else if typ = 193 then some (0, 10 ^ 6 - 1)
  else if typ = 194 then some (1, 8191)
  else none

/-! ### Helper lemmas -/

private theorem charOf_cases (d : Nat) (h : d < 16) : (48 ≤ charOf d ∧ charOf d ≤ 57 ∧ charOf d - 48 = d) ∨
    (97 ≤ charOf d ∧ charOf d ≤ 102 ∧ charOf d - 87 = d) := by
  unfold charOf
  by_cases hd : d < 10
  · rw [if_pos hd]; left; omega
  · rw [if_neg hd]; right; omega

private theorem charOf_ten (d : Nat) (h : d < 10) : charOf d = 48 + d := by
  unfold charOf; rw [if_pos h]

private theorem val_charOf (d : Nat) (h : d < 16) :
    (if charOf d ≤ 57 then charOf d - 48 else charOf d - 87) = d := by
  rcases charOf_cases d h with ⟨h1, h2, h3⟩ | ⟨h1, h2, h3⟩
  · rw [if_pos h2]; exact h3
  · rw [if_neg (by omega)]; exact h3

private theorem digitVal_charOf (base d : Nat) (hb : base = 10 ∨ base = 16) (h : d < base) :
    digitVal base (charOf d) = some d := by
  unfold digitVal
  rcases hb with rfl | rfl
  · rw [charOf_ten d h, if_pos (by omega)]
    congr 1; omega
  · rcases charOf_cases d h with ⟨h1, h2, h3⟩ | ⟨h1, h2, h3⟩
    · rw [if_pos ⟨h1, h2⟩, h3]
    · rw [if_neg (by omega), if_pos ⟨rfl, h1, h2⟩, h3]

private theorem lt16 {base d : Nat} (hb : base = 10 ∨ base = 16) (h : d < base) : d < 16 := by omega

private theorem digits_eq (base : Nat) (hb : base = 10 ∨ base = 16) : ∀ (s : List Nat) (acc : Nat),
    AllDigits base s → digits base s acc =
      some (s.foldl (fun acc c => acc * base + (if c ≤ 57 then c - 48 else c - 87)) acc) := by
  intro s
  induction s with
  | nil => intro acc _; rfl
  | cons c s ih =>
    intro acc h
    obtain ⟨d, hd, rfl⟩ := h c (List.mem_cons_self)
    unfold digits
    rw [digitVal_charOf base d hb hd, List.foldl_cons, val_charOf d (lt16 hb hd)]
    exact ih _ (fun c hc => h c (List.mem_cons_of_mem _ hc))

private theorem unprefix_eq (base : Nat) (hb : base = 10 ∨ base = 16) (s : List Nat) (h : AllDigits base s) :
    unprefix base s = s := by
  unfold unprefix
  split
  · rename_i x c r
    rw [if_neg]
    rintro ⟨_, hx, _⟩
    obtain ⟨d, hd, he⟩ := h x (by simp)
    rcases charOf_cases d (lt16 hb hd) with ⟨h1, h2, _⟩ | ⟨h1, h2, _⟩ <;> omega
  · rfl

private theorem readULL_eq (base : Nat) (hb : base = 10 ∨ base = 16) (s : List Nat) (hne : s ≠ [])
    (h : AllDigits base s) (hv : value base s < 2 ^ 64) : readULL base s = some (value base s) := by
  cases s with
  | nil => exact absurd rfl hne
  | cons c s =>
    obtain ⟨d, hd, hc⟩ := h c (List.mem_cons_self)
    have hcc := charOf_cases d (lt16 hb hd)
    rw [← hc] at hcc
    have hsp : isSpace c = false := by
      unfold isSpace
      rw [Bool.or_eq_false_iff]
      refine ⟨by simp; omega, ?_⟩
      by_cases h13 : c ≤ 13
      · omega
      · simp [h13]
    unfold readULL
    rw [List.dropWhile_cons, hsp]
    simp only [Bool.false_eq_true, if_false]
    have hm : magnitude base (c :: s) = some (value base (c :: s)) := by
      unfold magnitude
      rw [unprefix_eq base hb _ h, if_neg (by simp), digits_eq base hb _ _ h]
      show (if value base (c :: s) < 2 ^ 64 then some (value base (c :: s)) else none) = _
      rw [if_pos hv]
    unfold signed
    split
    · rename_i heq; injection heq with h1 _; omega
    · rename_i heq; injection heq with h1 _; omega
    · exact hm

private theorem value_snoc (base : Nat) (s : List Nat) (c : Nat) :
    value base (s ++ [c]) = value base s * base + (if c ≤ 57 then c - 48 else c - 87) := by
  unfold value
  rw [List.foldl_append]
  rfl

private theorem value_pos (base : Nat) (hb : base = 10 ∨ base = 16) : ∀ (n : Nat) (s : List Nat),
    s.length = n → s ≠ [] → AllDigits base s → s.head? ≠ some 48 → 0 < value base s := by
  intro n
  induction n with
  | zero => intro s hl hne; exact absurd (List.length_eq_zero_iff.1 hl) hne
  | succ n ih =>
    intro s hl hne hd hh
    obtain ⟨t, c, rfl⟩ : ∃ t c, s = t ++ [c] :=
      ⟨s.dropLast, s.getLast hne, (List.dropLast_concat_getLast hne).symm⟩
    rw [value_snoc]
    by_cases ht : t = []
    · subst ht
      obtain ⟨d, hd1, hd2⟩ := hd c (by simp)
      rw [hd2, val_charOf d (lt16 hb hd1)]
      have : d ≠ 0 := by
        rintro rfl
        apply hh
        rw [hd2]
        rfl
      omega
    · have htl : t.length = n := by simpa using hl
      have hth : t.head? ≠ some 48 := by
        intro he
        apply hh
        rw [List.head?_append, he]
        rfl
      have := ih t htl ht (fun c hc => hd c (List.mem_append_left _ hc)) hth
      have hmul : 0 < value base t * base := Nat.mul_pos this (by omega)
      omega

private theorem render_canon (base : Nat) (hb : base = 10 ∨ base = 16) : ∀ (fuel : Nat) (s : List Nat),
    Canon base s → s.length ≤ fuel → render base fuel (value base s) = s := by
  intro fuel
  induction fuel with
  | zero =>
    intro s hs hl
    exact absurd (List.length_eq_zero_iff.1 (Nat.le_zero.1 hl)) hs.1
  | succ fuel ih =>
    intro s hs hl
    obtain ⟨hne, hd, hz⟩ := hs
    obtain ⟨t, c, rfl⟩ : ∃ t c, s = t ++ [c] :=
      ⟨s.dropLast, s.getLast hne, (List.dropLast_concat_getLast hne).symm⟩
    obtain ⟨d, hd1, hd2⟩ := hd c (by simp)
    have hv : value base (t ++ [c]) = value base t * base + d := by
      rw [value_snoc, hd2, val_charOf d (lt16 hb hd1)]
    have hdiv : (value base t * base + d) / base = value base t := by
      rw [Nat.mul_comm, Nat.mul_add_div (by omega), Nat.div_eq_of_lt hd1, Nat.add_zero]
    have hmod : (value base t * base + d) % base = d := by
      rw [Nat.mul_comm, Nat.mul_add_mod, Nat.mod_eq_of_lt hd1]
    unfold render
    rw [hv, hdiv, hmod, ← hd2]
    by_cases ht : t = []
    · subst ht
      rw [if_pos (show value base [] = 0 from rfl)]
    · have htd : AllDigits base t := fun c hc => hd c (List.mem_append_left _ hc)
      have hth : t.head? ≠ some 48 := by
        intro he
        have := hz (by rw [List.head?_append, he]; rfl)
        have h0 : t.length = 0 := by simpa using this
        exact ht (List.length_eq_zero_iff.1 h0)
      have hp := value_pos base hb t.length t rfl ht htd hth
      rw [if_neg (by omega), ih t ⟨ht, htd, fun he => absurd he hth⟩ (by simpa using hl)]

private theorem toBytes_length : ∀ (k v : Nat), (toBytes k v).length = k := by
  intro k
  induction k with
  | zero => intro v; rfl
  | succ k ih => intro v; unfold toBytes; rw [List.length_append, ih]; rfl

private theorem num_toBytes : ∀ (k v : Nat), k ≤ 8 → v < 256 ^ k → num (toBytes k v) = v := by
  intro k
  induction k with
  | zero =>
    intro v _ hv
    have : v = 0 := by simpa using hv
    rw [this]; rfl
  | succ k ih =>
    intro v hk hv
    have h1 : v / 256 < 256 ^ k := by
      rw [Nat.div_lt_iff_lt_mul (by omega)]
      rw [Nat.pow_succ] at hv
      exact hv
    unfold toBytes
    have : num (toBytes k (v / 256) ++ [v % 256]) = (num (toBytes k (v / 256)) * 256 + v % 256) % 2 ^ 64 := by
      unfold num
      rw [List.foldl_append]
      rfl
    rw [this, ih _ (by omega) h1]
    have h8 : 256 ^ (k + 1) ≤ 256 ^ 8 := Nat.pow_le_pow_right (by omega) hk
    have h9 : (256 : Nat) ^ 8 = 2 ^ 64 := by decide
    rw [show v / 256 * 256 + v % 256 = v by omega, Nat.mod_eq_of_lt (by omega)]

private theorem take_toBytes (k v : Nat) (rest : List Nat) : (toBytes k v ++ rest).take k = toBytes k v := by
  rw [List.take_append_of_le_length (by rw [toBytes_length]; exact Nat.le_refl _),
    List.take_of_length_le (by rw [toBytes_length]; exact Nat.le_refl _)]

private theorem drop_toBytes (k v : Nat) (rest : List Nat) : (toBytes k v ++ rest).drop k = rest := by
  rw [List.drop_append_of_le_length (by rw [toBytes_length]; exact Nat.le_refl _),
    List.drop_of_length_le (by rw [toBytes_length]; exact Nat.le_refl _)]
  rfl

/-- The number of digits bounds the value. -/
private theorem value_lt (base : Nat) (hb : base = 10 ∨ base = 16) : ∀ (n : Nat) (s : List Nat),
    s.length = n → AllDigits base s → value base s < base ^ n := by
  intro n
  induction n with
  | zero =>
    intro s hl _
    rw [List.length_eq_zero_iff.1 hl]
    exact Nat.one_pos
  | succ n ih =>
    intro s hl hd
    have hne : s ≠ [] := by rintro rfl; cases hl
    obtain ⟨t, c, rfl⟩ : ∃ t c, s = t ++ [c] :=
      ⟨s.dropLast, s.getLast hne, (List.dropLast_concat_getLast hne).symm⟩
    obtain ⟨d, hd1, hd2⟩ := hd c (by simp)
    rw [value_snoc, hd2, val_charOf d (lt16 hb hd1), Nat.pow_succ]
    have := ih t (by simpa using hl) (fun c hc => hd c (List.mem_append_left _ hc))
    calc value base t * base + d < value base t * base + base := by omega
      _ = (value base t + 1) * base := by rw [Nat.add_mul, Nat.one_mul]
      _ ≤ base ^ n * base := Nat.mul_le_mul_right _ this

private theorem canon_len_le (s : List Nat) (hs : Canon 10 s) (n : Nat) (h : value 10 s < 10 ^ n) (hn : 1 ≤ n) :
    s.length ≤ n := by
  apply Nat.le_of_not_lt
  intro hlt
  obtain ⟨c, t, rfl⟩ : ∃ c t, s = c :: t := by
    cases s with
    | nil => exact absurd rfl hs.1
    | cons c t => exact ⟨c, t, rfl⟩
  have h48 : c ≠ 48 := by
    rintro rfl
    have := hs.2.2 rfl
    omega
  have key : ∀ (m : Nat) (t : List Nat), t.length = m → AllDigits 10 (c :: t) → 10 ^ m ≤ value 10 (c :: t) := by
    intro m
    induction m with
    | zero =>
      intro t ht hd
      have := value_pos 10 (Or.inl rfl) _ (c :: t) rfl (by simp) hd (by simp [h48])
      exact this
    | succ m ih =>
      intro t ht hd
      have hne : t ≠ [] := by rintro rfl; cases ht
      obtain ⟨u, e, rfl⟩ : ∃ u e, t = u ++ [e] :=
        ⟨t.dropLast, t.getLast hne, (List.dropLast_concat_getLast hne).symm⟩
      have := ih u (by simpa using ht) (fun x hx => hd x (by
        rcases List.mem_cons.1 hx with rfl | hx
        · exact List.mem_cons_self
        · exact List.mem_cons_of_mem _ (List.mem_append_left _ hx)))
      rw [show c :: (u ++ [e]) = (c :: u) ++ [e] by rfl, value_snoc, Nat.pow_succ]
      omega
  have h1 := key t.length t rfl hs.2.1
  have h2 : 10 ^ n ≤ 10 ^ t.length := Nat.pow_le_pow_right (by omega) (by
    simp at hlt; omega)
  omega

private theorem setup_num (valid : Nat → Bool) (typ : Nat) (h3 : typ ≠ 3) (h5 : typ ≠ 5) (h9 : typ ≠ 9)
    (s : List Nat) : setup valid typ s =
      (match numType typ with
        | some (lo, hi, k) => setupNum lo hi k s
        | none => .reject) := by
  unfold setup
  rw [if_neg h3, if_neg h5, if_neg h9]
  cases numType typ <;> rfl

private theorem setup_nine (valid : Nat → Bool) (s : List Nat) :
    setup valid 9 s = setupTwo 1 9 1 9999999999999999999 8 10 s := by
  unfold setup
  rw [if_neg (by omega), if_neg (by omega), if_pos rfl]

private theorem idText_five (orig mem : List Nat) (left : Nat) : idText orig 5 mem left = uuidText mem := by
  unfold idText
  rw [if_neg (by omega), if_neg (by omega), if_pos rfl]

/-! ### The property -/

/-- An id that is one number, in the usual notation and in the range of its type, is
accepted and comes out as it was configured. -/
theorem C124_number (valid : Nat → Bool) (orig : List Nat) (typ lo hi k : Nat)
    (ht : numType typ = some (lo, hi, k)) (s : List Nat) (hs : Canon 10 s) (h1 : lo ≤ value 10 s) (h2 : value 10 s ≤ hi) :
    ∃ b, setup valid typ s = .ok b ∧ b.length = k ∧
      ∀ rest left, idText orig typ (b ++ rest) left = s := by
  have hk : k ≤ 8 ∧ hi < 256 ^ k ∧ hi < 2 ^ 64 ∧ hi < 10 ^ 20 ∧ typ ≠ 3 ∧ typ ≠ 5 ∧ typ ≠ 9 ∧ typ ≠ 0 := by
    unfold numType at ht
    repeat' split at ht
    all_goals first
      | (simp only [Option.some.injEq, Prod.mk.injEq] at ht
         obtain ⟨rfl, rfl, rfl⟩ := ht
         refine ⟨by decide, by decide, by decide, by decide, by omega, by omega, by omega, by omega⟩)
      | cases ht
  obtain ⟨k1, k2, k3, k4, t3, t5, t9, t0⟩ := hk
  refine ⟨toBytes k (value 10 s), ?_, toBytes_length _ _, ?_⟩
  · unfold setup
    rw [if_neg t3, if_neg t5, if_neg t9, ht]
    simp only []
    unfold setupNum
    rw [readULL_eq 10 (Or.inl rfl) s hs.1 hs.2.1 (by omega)]
    simp only []
    rw [if_neg (by omega), if_pos (by omega)]
  · intro rest left
    unfold idText
    rw [if_neg t0, if_neg t3, if_neg t5, if_neg t9, ht]
    simp only []
    rw [take_toBytes, num_toBytes k _ k1 (by omega)]
    exact render_canon 10 (Or.inl rfl) 20 s hs (canon_len_le s hs 20 (by omega) (by omega))

example : setup (fun _ => true) 7 [50, 52, 52, 49, 50, 51, 52, 53, 54] = .ok [14, 141, 7, 64] ∧
    idText [] 7 [14, 141, 7, 64, 99] 5 = [50, 52, 52, 49, 50, 51, 52, 53, 54] := by decide +kernel

/-- A number outside of the range is refused. -/
theorem C124_range (valid : Nat → Bool) (typ lo hi k : Nat) (ht : numType typ = some (lo, hi, k))
    (s : List Nat) (hs : Canon 10 s) (h : value 10 s < lo ∨ hi < value 10 s) : setup valid typ s = .reject := by
  have hk : typ ≠ 3 ∧ typ ≠ 5 ∧ typ ≠ 9 := by
    unfold numType at ht
    refine ⟨?_, ?_, ?_⟩ <;> rintro rfl <;> simp at ht
  unfold setup
  rw [if_neg hk.1, if_neg hk.2.1, if_neg hk.2.2, ht]
  simp only []
  unfold setupNum
  by_cases hv : value 10 s < 2 ^ 64
  · rw [readULL_eq 10 (Or.inl rfl) s hs.1 hs.2.1 hv]
    simp only []
    rw [if_pos h]
  · have : readULL 10 s = none := by
      obtain ⟨c, t, rfl⟩ : ∃ c t, s = c :: t := by
        cases s with
        | nil => exact absurd rfl hs.1
        | cons c t => exact ⟨c, t, rfl⟩
      obtain ⟨d, hd, hc⟩ := hs.2.1 c (List.mem_cons_self)
      rw [charOf_ten d hd] at hc
      have hsp : isSpace c = false := by
        unfold isSpace
        rw [Bool.or_eq_false_iff]
        refine ⟨by simp; omega, ?_⟩
        by_cases h13 : c ≤ 13
        · omega
        · simp [h13]
      unfold readULL
      rw [List.dropWhile_cons, hsp]
      simp only [Bool.false_eq_true, if_false]
      have hm : magnitude 10 (c :: t) = none := by
        unfold magnitude
        rw [unprefix_eq 10 (Or.inl rfl) _ hs.2.1, if_neg (by simp), digits_eq 10 (Or.inl rfl) _ _ hs.2.1]
        show (if value 10 (c :: t) < 2 ^ 64 then some (value 10 (c :: t)) else none) = _
        rw [if_neg hv]
      unfold signed
      split
      · rename_i heq; injection heq with h1 _; omega
      · rename_i heq; injection heq with h1 _; omega
      · exact hm
    rw [this]

example : setup (fun _ => true) 194 [48] = .reject ∧ setup (fun _ => true) 194 [56, 49, 57, 50] = .reject := by
  decide +kernel

/-- A number in the usual notation is accepted exactly if it is in the documented range. -/
theorem C124_table (valid : Nat → Bool) (typ lo hi : Nat) (ht : documented typ = some (lo, hi))
    (s : List Nat) (hs : Canon 10 s) : (∃ b, setup valid typ s = .ok b) ↔ lo ≤ value 10 s ∧ value 10 s ≤ hi := by
  have hn : ∃ k, numType typ = some (lo, hi, k) := by
    unfold documented at ht
    unfold numType
    repeat' split at ht
    all_goals first
      | (simp only [Option.some.injEq, Prod.mk.injEq] at ht
         obtain ⟨h1, h2⟩ := ht
         subst h1 h2
         subst typ
         exact ⟨_, rfl⟩)
      | cases ht
  obtain ⟨k, hk⟩ := hn
  by_cases h : lo ≤ value 10 s ∧ value 10 s ≤ hi
  · obtain ⟨b, hb, _⟩ := C124_number valid [] typ lo hi k hk s hs h.1 h.2
    exact ⟨fun _ => h, fun _ => ⟨b, hb⟩⟩
  · constructor
    · rintro ⟨b, hb⟩
      rw [C124_range valid typ lo hi k hk s hs (by omega)] at hb
      cases hb
    · intro h'; exact absurd h' h

/-- No configured id fails an assertion. -/
theorem C124_no_abort (valid : Nat → Bool) (typ : Nat) (s : List Nat) : setup valid typ s ≠ .abort := by
  have hmag : ∀ base r v, magnitude base r = some v → v < 2 ^ 64 := by
    intro base r v h
    unfold magnitude at h
    split at h
    · cases h
    · cases hd : digits base (unprefix base r) 0 with
      | none => rw [hd] at h; cases h
      | some w =>
        rw [hd] at h
        simp only [Option.bind] at h
        by_cases hw : w < 2 ^ 64
        · rw [if_pos hw] at h; cases h; exact hw
        · rw [if_neg hw] at h; cases h
  have hread : ∀ base t v, readULL base t = some v → v < 2 ^ 64 := by
    intro base t v h
    unfold readULL signed at h
    split at h
    · rename_i r _
      cases hr : magnitude base r with
      | none => rw [hr] at h; cases h
      | some w =>
        rw [hr] at h
        simp only [Option.map] at h
        cases h
        exact Nat.mod_lt _ (by decide)
    · exact hmag _ _ _ h
    · exact hmag _ _ _ h
  have h8 : (256 : Nat) ^ 8 = 2 ^ 64 := by decide
  have htwo : ∀ chars max1 k1 max2 base, k1 = 8 ∨ (k1 = 1 ∧ max1 = 9) →
      setupTwo chars max1 k1 max2 8 base s ≠ .abort := by
    intro chars max1 k1 max2 base hk h
    unfold setupTwo at h
    cases h1 : readULL base (s.take chars) with
    | none => rw [h1] at h; cases h
    | some v1 =>
      have b1 := hread _ _ _ h1
      rw [h1] at h
      simp only [] at h
      by_cases hm : max1 < v1
      · rw [if_pos hm] at h; cases h
      · rw [if_neg hm] at h
        have hk1 : v1 < 256 ^ k1 := by
          rcases hk with rfl | ⟨rfl, rfl⟩ <;> omega
        by_cases hl : s.length ≤ chars
        · rw [if_pos hl] at h
          unfold store at h
          rw [if_pos ⟨Nat.pow_pos (by omega), by omega⟩] at h
          cases h
        · rw [if_neg hl] at h
          cases h2 : readULL base (s.drop chars) with
          | none => rw [h2] at h; cases h
          | some v2 =>
            have b2 := hread _ _ _ h2
            rw [h2] at h
            simp only [] at h
            by_cases hm2 : max2 < v2
            · rw [if_pos hm2] at h; cases h
            · rw [if_neg hm2] at h
              unfold store at h
              rw [if_pos ⟨hk1, by omega⟩] at h
              cases h
  intro h
  unfold setup at h
  by_cases t3 : typ = 3
  · rw [if_pos t3] at h
    by_cases hv : s.all valid = true ∧ s.length ≤ 1023
    · rw [if_pos hv] at h; cases h
    · rw [if_neg hv] at h; cases h
  · rw [if_neg t3] at h
    by_cases t5 : typ = 5
    · rw [if_pos t5] at h
      exact htwo _ _ _ _ _ (Or.inl rfl) h
    · rw [if_neg t5] at h
      by_cases t9 : typ = 9
      · rw [if_pos t9] at h
        exact htwo _ _ _ _ _ (Or.inr ⟨rfl, rfl⟩) h
      · rw [if_neg t9] at h
        cases ht : numType typ with
        | none => rw [ht] at h; cases h
        | some p =>
          obtain ⟨lo, hi, k⟩ := p
          have hk : hi < 256 ^ k := by
            unfold numType at ht
            repeat' split at ht
            all_goals first
              | (simp only [Option.some.injEq, Prod.mk.injEq] at ht
                 obtain ⟨rfl, rfl, rfl⟩ := ht
                 decide)
              | cases ht
          rw [ht] at h
          simp only [] at h
          unfold setupNum at h
          cases hr : readULL 10 s with
          | none => rw [hr] at h; cases h
          | some v =>
            rw [hr] at h
            simp only [] at h
            by_cases hrg : v < lo ∨ hi < v
            · rw [if_pos hrg] at h; cases h
            · rw [if_neg hrg, if_pos (by omega)] at h; cases h

/-- Texts that are not numbers of the range are accepted: `-18446744073709551615` is 1,
and blanks and a sign may precede. -/
theorem C124_accept_negation (valid : Nat → Bool) :
    setup valid 194 [45, 49, 56, 52, 52, 54, 55, 52, 52, 48, 55, 51, 55, 48, 57, 53, 53, 49, 54, 49, 53] = .ok [0, 1] ∧
    setup valid 194 [32, 9, 43, 55] = .ok [0, 7] := by
  constructor
  · rw [setup_num _ _ (by omega) (by omega) (by omega)]; decide +kernel
  · rw [setup_num _ _ (by omega) (by omega) (by omega)]; decide +kernel

/-- Leading zeros are lost: 0031612345678 and 31612345678 are the same telephone
number id. -/
theorem C124_zeros_negation (valid : Nat → Bool) :
    setup valid 1 [48, 48, 51, 49, 54, 49, 50] = setup valid 1 [51, 49, 54, 49, 50] ∧
    setup valid 1 [51, 49, 54, 49, 50] ≠ .reject := by
  constructor
  · rw [setup_num _ _ (by omega) (by omega) (by omega), setup_num _ _ (by omega) (by omega) (by omega)]; decide +kernel
  · rw [setup_num _ _ (by omega) (by omega) (by omega)]; decide +kernel

/-- A UUID of 32 hexadecimal digits comes out as it was configured if neither half
begins with a zero. -/
theorem C124_uuid_partial (valid : Nat → Bool) (orig : List Nat) (s : List Nat) (hl : s.length = 32)
    (hd : AllDigits 16 s) (h1 : (s.take 16).head? ≠ some 48) (h2 : (s.drop 16).head? ≠ some 48) :
    ∃ b, setup valid 5 s = .ok b ∧ b.length = 16 ∧ ∀ rest left, idText orig 5 (b ++ rest) left = s := by
  obtain ⟨x, hx⟩ : ∃ x, x = s.take 16 := ⟨_, rfl⟩
  obtain ⟨y, hy⟩ : ∃ y, y = s.drop 16 := ⟨_, rfl⟩
  have hxy : x ++ y = s := by rw [hx, hy]; exact List.take_append_drop 16 s
  have lx : x.length = 16 := by rw [hx, List.length_take]; omega
  have ly : y.length = 16 := by rw [hy, List.length_drop]; omega
  have dx : AllDigits 16 x := fun c hc => hd c (by rw [← hxy]; exact List.mem_append_left _ hc)
  have dy : AllDigits 16 y := fun c hc => hd c (by rw [← hxy]; exact List.mem_append_right _ hc)
  have vx := value_lt 16 (Or.inr rfl) 16 x lx dx
  have vy := value_lt 16 (Or.inr rfl) 16 y ly dy
  have e16 : (16 : Nat) ^ 16 = 2 ^ 64 := by decide
  have e8 : (256 : Nat) ^ 8 = 2 ^ 64 := by decide
  have nx : x ≠ [] := by rintro rfl; cases lx
  have ny : y ≠ [] := by rintro rfl; cases ly
  rw [← hx] at h1
  rw [← hy] at h2
  have cx : Canon 16 x := ⟨nx, dx, fun h => absurd h h1⟩
  have cy : Canon 16 y := ⟨ny, dy, fun h => absurd h h2⟩
  refine ⟨toBytes 8 (value 16 x) ++ toBytes 8 (value 16 y), ?_, by rw [List.length_append, toBytes_length, toBytes_length], ?_⟩
  · unfold setup
    rw [if_neg (by omega), if_pos rfl]
    unfold setupTwo
    rw [← hx, ← hy, readULL_eq 16 (Or.inr rfl) x nx dx (by omega)]
    simp only []
    rw [if_neg (by omega), if_neg (by omega), readULL_eq 16 (Or.inr rfl) y ny dy (by omega)]
    simp only []
    rw [if_neg (by omega)]
    unfold store
    rw [if_pos ⟨by omega, by omega⟩]
  · intro rest left
    unfold idText
    rw [if_neg (by omega), if_neg (by omega), if_pos rfl]
    unfold uuidText
    rw [List.append_assoc, take_toBytes, drop_toBytes, take_toBytes, num_toBytes 8 _ (by omega) (by omega),
      num_toBytes 8 _ (by omega) (by omega), render_canon 16 (Or.inr rfl) 16 x cx (by omega),
      render_canon 16 (Or.inr rfl) 16 y cy (by omega), if_neg (by omega), hxy]

/-- 550e8400e29b41d4a716446655440000. -/
example : setup (fun _ => true) 5 [53, 53, 48, 101, 56, 52, 48, 48, 101, 50, 57, 98, 52, 49, 100, 52, 97, 55, 49, 54, 52, 52, 54, 54, 53, 53, 52, 52, 48, 48, 48, 48] =
    .ok [0x55, 0x0e, 0x84, 0, 0xe2, 0x9b, 0x41, 0xd4, 0xa7, 0x16, 0x44, 0x66, 0x55, 0x44, 0, 0] := by
  decide +kernel

/-- If the first half begins with a zero then the second half is not shown at all, so
that different UUIDs have the same text; if the second half begins with a zero then
digits are missing in the middle.  A UUID with the usual hyphens is refused. -/
theorem C124_uuid_negation (orig : List Nat) :
    (∀ (a b : List Nat) (h : Nat) left, a.length = 7 → b.length = 8 → h < 16 → (∀ x ∈ a, x < 256) →
      idText orig 5 (h :: a ++ b) left = render 16 16 (num (h :: a))) ∧
    idText orig 5 [1, 35, 69, 103, 137, 171, 205, 239, 1, 2, 3, 4, 5, 6, 7, 8] 16 =
      idText orig 5 [1, 35, 69, 103, 137, 171, 205, 239, 9, 9, 9, 9, 9, 9, 9, 9] 16 ∧
    idText orig 5 [0x55, 0x0e, 0x84, 0, 0xe2, 0x9b, 0x41, 0xd4, 0x07, 0x16, 0x44, 0x66, 0x55, 0x44, 0, 0] 16 =
      [53, 53, 48, 101, 56, 52, 48, 48, 101, 50, 57, 98, 52, 49, 100, 52, 55, 49, 54, 52, 52, 54, 54, 53, 53, 52, 52, 48, 48, 48, 48] ∧
    setup (fun _ => true) 5 [53, 53, 48, 101, 56, 52, 48, 48, 45, 101, 50, 57, 98, 45, 52, 49, 100, 52, 45, 97, 55, 49, 54, 45, 52, 52, 54, 54, 53, 53, 52, 52, 48, 48, 48, 48] = .reject := by
  refine ⟨?_, by rw [idText_five, idText_five]; decide +kernel, by rw [idText_five]; decide +kernel, by decide +kernel⟩
  intro a b h left ha hb hh hx
  have hlen : (h :: a).length = 8 := by simp [ha]
  have ht : (h :: a ++ b).take 8 = h :: a := by
    rw [List.take_append_of_le_length (by omega), List.take_of_length_le (by omega)]
  -- the number is below 16^15
  have hnum : ∀ (n : Nat) (l : List Nat) (acc : Nat), l.length = n → (∀ x ∈ l, x < 256) →
      l.foldl (fun acc x => (acc * 256 + x) % 2 ^ 64) acc < (acc + 1) * 256 ^ n := by
    intro n
    induction n with
    | zero =>
      intro l acc hl _
      rw [List.length_eq_zero_iff.1 hl]
      simp
    | succ n ih =>
      intro l acc hl hx
      cases l with
      | nil => cases hl
      | cons y l =>
        rw [List.foldl_cons]
        have h1 := ih l ((acc * 256 + y) % 2 ^ 64) (by simpa using hl) (fun z hz => hx z (List.mem_cons_of_mem _ hz))
        have hy := hx y (List.mem_cons_self)
        have h2 : (acc * 256 + y) % 2 ^ 64 + 1 ≤ (acc + 1) * 256 := by
          have := Nat.mod_le (acc * 256 + y) (2 ^ 64)
          omega
        have h3 : ((acc * 256 + y) % 2 ^ 64 + 1) * 256 ^ n ≤ (acc + 1) * 256 * 256 ^ n := Nat.mul_le_mul_right _ h2
        rw [show 256 ^ (n + 1) = 256 * 256 ^ n by rw [Nat.pow_succ, Nat.mul_comm], ← Nat.mul_assoc]
        exact Nat.lt_of_lt_of_le h1 h3
  have hlt : num (h :: a) < 16 ^ 15 := by
    unfold num
    rw [List.foldl_cons]
    have h1 := hnum 7 a ((0 * 256 + h) % 2 ^ 64) ha hx
    have h2 : (0 * 256 + h) % 2 ^ 64 = h := by omega
    rw [h2] at h1 ⊢
    have h3 : (h + 1) * 256 ^ 7 ≤ 16 * 256 ^ 7 := Nat.mul_le_mul_right _ (by omega)
    have h4 : 16 * 256 ^ 7 = 16 ^ 15 := by decide
    omega
  have hr : ∀ (f m n : Nat), n < 16 ^ m → 1 ≤ m → (render 16 f n).length ≤ m := by
    intro f
    induction f with
    | zero => intro m n _ _; exact Nat.zero_le _
    | succ f ih =>
      intro m n hn hm
      unfold render
      rw [List.length_append]
      by_cases hz : n / 16 = 0
      · rw [if_pos hz]; exact hm
      · rw [if_neg hz]
        have hm2 : 2 ≤ m := by
          apply Nat.le_of_not_lt
          intro hlt
          have : m = 1 := by omega
          subst this
          omega
        have := ih (m - 1) (n / 16) (by
          rw [Nat.div_lt_iff_lt_mul (by omega), ← Nat.pow_succ, show (m - 1).succ = m by omega]
          exact hn) (by omega)
        show _ + 1 ≤ m
        omega
  have := hr 16 15 _ hlt (by omega)
  show uuidText _ = _
  unfold uuidText
  rw [ht, if_pos (by omega)]

/-- A MIP number comes out as it was configured if its second digit is not a zero
with others behind it. -/
theorem C124_mip_partial (valid : Nat → Bool) (orig : List Nat) (d : Nat) (hd : d < 10) (t : List Nat)
    (ht : Canon 10 t) (hv : value 10 t ≤ 9999999999999999999) :
    ∃ b, setup valid 9 ((48 + d) :: t) = .ok b ∧ b.length = 9 ∧
      ∀ rest left, idText orig 9 (b ++ rest) left = (48 + d) :: t := by
  have hc1 : Canon 10 [48 + d] := ⟨by simp, fun c hc => ⟨d, hd, by
    rw [charOf_ten d hd]; simpa using hc⟩, fun _ => rfl⟩
  have hv1 : value 10 [48 + d] = d := by
    show 0 * 10 + (if 48 + d ≤ 57 then 48 + d - 48 else 48 + d - 87) = d
    rw [if_pos (by omega)]; omega
  have hr1 := readULL_eq 10 (Or.inl rfl) [48 + d] hc1.1 hc1.2.1 (by rw [hv1]; omega)
  rw [hv1] at hr1
  have hlen : 1 ≤ t.length := by
    cases t with
    | nil => exact absurd rfl ht.1
    | cons _ _ => simp
  refine ⟨toBytes 1 d ++ toBytes 8 (value 10 t), ?_, by rw [List.length_append, toBytes_length, toBytes_length], ?_⟩
  · unfold setup
    rw [if_neg (by omega), if_neg (by omega), if_pos rfl]
    unfold setupTwo
    rw [show ((48 + d) :: t).take 1 = [48 + d] by rfl, show ((48 + d) :: t).drop 1 = t by rfl, hr1]
    simp only []
    rw [if_neg (by omega), if_neg (by rw [List.length_cons]; omega), readULL_eq 10 (Or.inl rfl) t ht.1 ht.2.1 (by omega)]
    simp only []
    rw [if_neg (by omega)]
    unfold store
    rw [if_pos ⟨by omega, by omega⟩]
  · intro rest left
    unfold idText
    rw [if_neg (by omega), if_neg (by omega), if_neg (by omega), if_pos rfl]
    unfold mipText
    rw [List.append_assoc, take_toBytes, drop_toBytes, take_toBytes, num_toBytes 1 _ (by omega) (by omega),
      num_toBytes 8 _ (by omega) (by omega)]
    have r1 := render_canon 10 (Or.inl rfl) 20 [48 + d] hc1 (by simp)
    rw [hv1] at r1
    rw [r1, render_canon 10 (Or.inl rfl) 20 t ht (canon_len_le t ht 20 (by omega) (by omega))]
    rfl

example : setup (fun _ => true) 9 [55, 49, 50, 51] = .ok [7, 0, 0, 0, 0, 0, 0, 0, 123] := by decide +kernel

/-- 50123 and 5123 are the same MIP number; 5 comes out as 05; a first part of more
than one digit is cut. -/
theorem C124_mip_negation (valid : Nat → Bool) (orig : List Nat) :
    setup valid 9 [53, 48, 49, 50, 51] = .ok [5, 0, 0, 0, 0, 0, 0, 0, 123] ∧
    setup valid 9 [53, 49, 50, 51] = .ok [5, 0, 0, 0, 0, 0, 0, 0, 123] ∧
    setup valid 9 [53] = .ok [0, 0, 0, 0, 0, 0, 0, 0, 5] ∧
    idText orig 9 [0, 0, 0, 0, 0, 0, 0, 0, 5] 9 = [48, 53] ∧
    idText orig 9 [255, 0, 0, 0, 0, 0, 0, 0, 5] 9 = [50, 53] := by
  refine ⟨?_, ?_, ?_, ?_, ?_⟩
  · rw [setup_nine]; decide +kernel
  · rw [setup_nine]; decide +kernel
  · rw [setup_nine]; decide +kernel
  · show mipText _ = _; decide +kernel
  · show mipText _ = _; decide +kernel

/-- A link-layer address is shown byte by byte. -/
theorem C124_mac (orig mac rest : List Nat) (left : Nat) (hl : mac.length = 6) (hb : ∀ x ∈ mac, x < 256) :
    unpair (idText orig 0 (mac ++ rest) left) = mac := by
  match mac, hl, hb with
  | [a, b, c, d, e, f], _, hb =>
    have hx : ∀ x, x < 256 → 16 * (if charOf (x / 16) ≤ 57 then charOf (x / 16) - 48 else charOf (x / 16) - 87) +
        (if charOf (x % 16) ≤ 57 then charOf (x % 16) - 48 else charOf (x % 16) - 87) = x := by
      intro x h
      rw [val_charOf _ (by omega), val_charOf _ (by omega)]
      omega
    show unpair (macText _) = _
    unfold macText hex2 at'
    simp only [List.cons_append, List.nil_append, List.getD_cons_zero, List.getD_cons_succ, unpair]
    rw [hx a (hb a (by simp)), hx b (hb b (by simp)), hx c (hb c (by simp)), hx d (hb d (by simp)),
      hx e (hb e (by simp)), hx f (hb f (by simp))]

example : idText [] 0 [0, 27, 33, 171, 205, 239] 6 =
    [48, 48, 58, 49, 98, 58, 50, 49, 58, 97, 98, 58, 99, 100, 58, 101, 102] := by decide

/-- A name of at most 995 characters comes out as it was configured, whatever the
buffer of the binary form held before and whatever follows in memory, provided that
the message reaches to the zero byte. -/
theorem C124_dns (valid : Nat → Bool) (orig s old rest : List Nat) (left : Nat) (hs : s.length ≤ 995)
    (hv : s.all valid = true) (h0 : ∀ x ∈ s, x ≠ 0) (hleft : s.length ≤ left) :
    setup valid 3 s = .ok (s ++ [0]) ∧ idText orig 3 (dnsMem s old txSize ++ rest) left = s := by
  constructor
  · unfold setup
    rw [if_pos rfl, if_pos ⟨hv, by omega⟩]
  · have hn : dnsBytes s.length txSize = s.length + 2 := by unfold dnsBytes txSize; omega
    obtain ⟨r, hr⟩ : ∃ r, dnsMem s old txSize ++ rest = s ++ 0 :: r := by
      unfold dnsMem
      rw [hn, List.take_append, show s.length + 2 - s.length = 2 by omega, List.take_of_length_le (by omega)]
      exact ⟨old.take 1 ++ [0] ++ rest, by simp⟩
    rw [hr]
    have hlen : dnsLen (s ++ 0 :: r) left = s.length := by
      unfold dnsLen
      have hall : ∀ (u : List Nat) (v : List Nat), (∀ x ∈ u, x ≠ 0) →
          (u ++ v).takeWhile (· ≠ 0) = u ++ v.takeWhile (· ≠ 0) := by
        intro u
        induction u with
        | nil => intro v _; rfl
        | cons x u ih =>
          intro v h
          have hx : x ≠ 0 := h x (List.mem_cons_self)
          rw [List.cons_append, List.takeWhile_cons]
          simp only [ne_eq, hx, not_false_eq_true, decide_true, if_true]
          rw [List.cons_append]
          congr 1
          exact ih v (fun y hy => h y (List.mem_cons_of_mem _ hy))
      rw [List.take_append, List.take_of_length_le hleft, hall s _ h0]
      cases hk : left - s.length with
      | zero => simp
      | succ k => simp
    unfold idText
    rw [if_neg (by omega), if_pos rfl, hlen, Nat.min_eq_left (by omega),
      List.take_append_of_le_length (by omega), List.take_of_length_le (by omega)]

example : idText [] 3 (dnsMem [104, 111, 115, 116] [7, 7] txSize ++ [9]) 8 = [104, 111, 115, 116] := by decide +kernel

/-- The bytes of a name stay within the transmit buffer exactly if the name has at most
983 (IPv4) or 971 (IPv6) characters; longer ones are configured without complaint
and overrun the stack. -/
theorem C124_dns_room (v6 : Bool) (s old : List Nat) (hl : 1023 ≤ old.length + s.length) :
    idOffset v6 + (dnsMem s old txSize).length ≤ 1024 ↔ s.length ≤ (if v6 then 971 else 983) := by
  have hm : (dnsMem s old txSize).length = min (s.length + 2) 997 + 1 := by
    unfold dnsMem dnsBytes txSize
    rw [List.length_append, List.length_take, List.length_append, List.length_cons]
    show _ + 1 = _
    omega
  rw [hm]
  cases v6 with
  | true => show 4 + 24 + 21 + 1 + _ ≤ 1024 ↔ _ ≤ 971; omega
  | false => show 4 + 12 + 21 + 1 + _ ≤ 1024 ↔ _ ≤ 983; omega

example : idOffset false + (dnsMem (List.replicate 984 97) (List.replicate 40 0) txSize).length = 1025 := by decide +kernel

/-- The text depends only on the bytes of the message if the message reaches far
enough; that of a name always does. -/
theorem C124_inside_partial (orig : List Nat) (typ : Nat) (msg rest rest' : List Nat)
    (h : typ = 3 ∨ reach typ msg msg.length ≤ msg.length) :
    idText orig typ (msg ++ rest) msg.length = idText orig typ (msg ++ rest') msg.length := by
  have htake : ∀ (n : Nat) (r : List Nat), n ≤ msg.length → (msg ++ r).take n = msg.take n :=
    fun n r hn => List.take_append_of_le_length hn
  have hdt : ∀ (m n : Nat) (r : List Nat), m + n ≤ msg.length → ((msg ++ r).drop m).take n = (msg.drop m).take n := by
    intro m n r hn
    rw [List.drop_append_of_le_length (by omega), List.take_append_of_le_length (by rw [List.length_drop]; omega)]
  unfold idText
  unfold reach at h
  by_cases t0 : typ = 0
  · rw [if_pos t0, if_pos t0]
    rw [if_pos t0] at h
    have h6 : 6 ≤ msg.length := by
      rcases h with h | h
      · omega
      · exact h
    have hat : ∀ i r, i < 6 → at' (msg ++ r) i = at' msg i := by
      intro i r hi
      unfold at'
      rw [List.getD_eq_getElem?_getD, List.getD_eq_getElem?_getD, List.getElem?_append_left (by omega)]
    unfold macText
    rw [hat 0 rest (by omega), hat 1 rest (by omega), hat 2 rest (by omega), hat 3 rest (by omega), hat 4 rest (by omega),
      hat 5 rest (by omega), hat 0 rest' (by omega), hat 1 rest' (by omega), hat 2 rest' (by omega), hat 3 rest' (by omega),
      hat 4 rest' (by omega), hat 5 rest' (by omega)]
  · rw [if_neg t0, if_neg t0]
    rw [if_neg t0] at h
    by_cases t3 : typ = 3
    · rw [if_pos t3, if_pos t3]
      have hd : ∀ r, dnsLen (msg ++ r) msg.length = dnsLen msg msg.length ∧ dnsLen msg msg.length ≤ msg.length := by
        intro r
        unfold dnsLen
        rw [htake _ _ (Nat.le_refl _)]
        refine ⟨rfl, ?_⟩
        have := (List.takeWhile_sublist (p := (fun x : Nat => decide (x ≠ 0))) (l := msg.take msg.length)).length_le
        rw [List.length_take] at this
        omega
      rw [(hd rest).1, (hd rest').1, htake _ _ (Nat.le_trans (Nat.min_le_left _ _) (hd rest).2),
        htake _ _ (Nat.le_trans (Nat.min_le_left _ _) (hd rest).2)]
    · rw [if_neg t3, if_neg t3]
      rw [if_neg t3] at h
      by_cases t5 : typ = 5
      · rw [if_pos t5, if_pos t5]
        rw [if_pos t5] at h
        have h6 : 16 ≤ msg.length := by
          rcases h with h | h
          · omega
          · exact h
        unfold uuidText
        rw [htake 8 _ (by omega), htake 8 _ (by omega), hdt 8 8 _ (by omega), hdt 8 8 _ (by omega)]
      · rw [if_neg t5, if_neg t5]
        rw [if_neg t5] at h
        by_cases t9 : typ = 9
        · rw [if_pos t9, if_pos t9]
          rw [if_pos t9] at h
          have h6 : 9 ≤ msg.length := by
            rcases h with h | h
            · omega
            · exact h
          unfold mipText
          rw [htake 1 _ (by omega), htake 1 _ (by omega), hdt 1 8 _ (by omega), hdt 1 8 _ (by omega)]
        · rw [if_neg t9, if_neg t9]
          rw [if_neg t9] at h
          cases hn : numType typ with
          | none => rfl
          | some p =>
            obtain ⟨lo, hi, k⟩ := p
            rw [hn] at h
            simp only [] at h ⊢
            have h6 : k ≤ msg.length := by
              rcases h with h | h
              · omega
              · exact h
            rw [htake k _ h6, htake k _ h6]

/-- A message that ends before its node id makes the receiver show memory behind it. -/
theorem C124_inside_negation (orig : List Nat) :
    idText orig 2 ([1] ++ [2, 3, 4, 5, 6, 7, 8]) 1 ≠ idText orig 2 ([1] ++ [0, 0, 0, 0, 0, 0, 0]) 1 ∧
    (∀ msg rest : List Nat, (∀ x ∈ msg, x ≠ 0) → reach 3 (msg ++ rest) msg.length = msg.length + 1) := by
  constructor
  · show render 10 20 _ ≠ render 10 20 _
    decide +kernel
  · intro msg rest h
    unfold reach
    rw [if_neg (by omega), if_pos rfl]
    unfold dnsLen
    rw [List.take_append_of_le_length (Nat.le_refl _), List.take_of_length_le (Nat.le_refl _)]
    have : msg.takeWhile (fun x : Nat => decide (x ≠ 0)) = msg := by
      clear rest
      induction msg with
      | nil => rfl
      | cons x u ih =>
        have hx : x ≠ 0 := h x (List.mem_cons_self)
        rw [List.takeWhile_cons]
        simp only [ne_eq, hx, not_false_eq_true, decide_true, if_true]
        congr 1
        exact ih (fun y hy => h y (List.mem_cons_of_mem _ hy))
    rw [this]

end Verif.PudId
