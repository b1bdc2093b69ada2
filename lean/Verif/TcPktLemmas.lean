import Verif.TcPktModel
/-! Lemmas about bytes, borders and fragments. -/
namespace Verif.TcPkt

theorem foldl_be (b : List Nat) : ∀ a, b.foldl (fun a x => a * 256 + x) a =
    a * 256 ^ b.length + beVal b := by
  induction b with
  | nil => intro a; simp [beVal]
  | cons x xs ih =>
    intro a
    rw [List.foldl_cons, ih, show beVal (x :: xs) = xs.foldl (fun a x => a * 256 + x) (0 * 256 + x)
      from rfl, ih (0 * 256 + x), List.length_cons, Nat.pow_succ]
    generalize 256 ^ xs.length = p
    rw [Nat.zero_mul, Nat.zero_add, Nat.add_mul, Nat.mul_assoc, Nat.mul_comm 256 p, Nat.add_assoc]

theorem beVal_append (a b : List Nat) : beVal (a ++ b) = beVal a * 256 ^ b.length + beVal b := by
  rw [beVal, List.foldl_append, foldl_be b]
  rfl

theorem beVal_cons (x : Nat) (b : List Nat) : beVal (x :: b) = x * 256 ^ b.length + beVal b := by
  have := beVal_append [x] b
  simpa [beVal] using this

theorem beVal_lt (b : List Nat) (h : ∀ x ∈ b, x < 256) : beVal b < 256 ^ b.length := by
  induction b with
  | nil => simp [beVal]
  | cons x xs ih =>
    have h1 := ih (fun y hy => h y (List.mem_cons_of_mem _ hy))
    have h2 := h x (List.mem_cons_self ..)
    rw [beVal_cons, List.length_cons, Nat.pow_succ]
    generalize 256 ^ xs.length = p at *
    have : x * p + p ≤ p * 256 := by
      rw [← Nat.succ_mul, Nat.mul_comm p 256]
      exact Nat.mul_le_mul_right _ h2
    omega

theorem beVal_zeros (n : Nat) : beVal (List.replicate n 0) = 0 := by
  induction n with
  | zero => rfl
  | succ n ih => rw [List.replicate_succ, beVal_cons, ih, Nat.zero_mul]

theorem beVal_ones (n : Nat) : beVal (List.replicate n 0xff) + 1 = 256 ^ n := by
  induction n with
  | zero => rfl
  | succ n ih =>
    rw [List.replicate_succ, beVal_cons, Nat.pow_succ, List.length_replicate, Nat.add_assoc, ih]
    generalize 256 ^ n = p
    omega

/-- Two different byte strings of the same length differ in a first byte. -/
theorem split_lt : ∀ (a b : List Nat), a.length = b.length → (∀ x ∈ a, x < 256) →
    (∀ x ∈ b, x < 256) → beVal a < beVal b →
    ∃ p x y s t, a = p ++ x :: s ∧ b = p ++ y :: t ∧ s.length = t.length ∧ x < y := by
  intro a
  induction a with
  | nil =>
    intro b hl _ _ h
    cases b with
    | nil => exact absurd h (Nat.lt_irrefl _)
    | cons y ys => cases hl
  | cons x xs ih =>
    intro b hl ha hb h
    cases b with
    | nil => cases hl
    | cons y ys =>
      have hl' : xs.length = ys.length := Nat.succ.inj hl
      have hax : ∀ z ∈ xs, z < 256 := fun z hz => ha z (List.mem_cons_of_mem _ hz)
      have hby : ∀ z ∈ ys, z < 256 := fun z hz => hb z (List.mem_cons_of_mem _ hz)
      rw [beVal_cons, beVal_cons, hl'] at h
      have h1 := beVal_lt xs hax
      have h2 := beVal_lt ys hby
      rw [hl'] at h1
      rcases Nat.lt_trichotomy x y with hlt | heq | hgt
      · exact ⟨[], x, y, xs, ys, rfl, rfl, hl', hlt⟩
      · subst heq
        obtain ⟨p, u, v, s, t, e1, e2, e3, e4⟩ := ih ys hl' hax hby (by omega)
        exact ⟨x :: p, u, v, s, t, by rw [e1]; rfl, by rw [e2]; rfl, e3, e4⟩
      · exfalso
        generalize 256 ^ ys.length = q at *
        have : (y + 1) * q ≤ x * q := Nat.mul_le_mul_right _ hgt
        rw [Nat.succ_mul] at this
        omega

/-- The byte computed from a border flag that points into it. -/
def cut (x p : Nat) : Nat := ((x &&& ((0xff <<< p) % 256)) ||| (1 <<< p)) % 256

/-- What the masks do, for all bytes. -/
theorem mask_table : ∀ p : Fin 8, ∀ x : Fin 256,
    x.val &&& ((0xfe <<< p.val) % 256) = x.val / 2 ^ (p.val + 1) * 2 ^ (p.val + 1) ∧
    cut x.val p.val = x.val / 2 ^ (p.val + 1) * 2 ^ (p.val + 1) + 2 ^ p.val := by
  decide +kernel

theorem mask_eq {x p : Nat} (hx : x < 256) (hp : p < 8) :
    x &&& ((0xfe <<< p) % 256) = x / 2 ^ (p + 1) * 2 ^ (p + 1) ∧
    cut x p = x / 2 ^ (p + 1) * 2 ^ (p + 1) + 2 ^ p := mask_table ⟨p, hp⟩ ⟨x, hx⟩

/-- The loop stops at the first position above which the bytes agree. -/
theorem bitLoop_spec {x y : Nat} (hx : x < 256) (hy : y < 256) : ∀ (f p : Nat), p + f = 8 →
    x / 2 ^ p ≠ y / 2 ^ p →
    bitLoop x y f p < 8 ∧ x / 2 ^ (bitLoop x y f p + 1) = y / 2 ^ (bitLoop x y f p + 1) ∧
      x / 2 ^ bitLoop x y f p ≠ y / 2 ^ bitLoop x y f p := by
  intro f
  induction f with
  | zero =>
    intro p hp hne
    have : p = 8 := by omega
    subst this
    exfalso
    apply hne
    rw [Nat.div_eq_of_lt hx, Nat.div_eq_of_lt hy]
  | succ f ih =>
    intro p hp hne
    have hp8 : p < 8 := by omega
    rw [bitLoop, (mask_eq hx hp8).1, (mask_eq hy hp8).1]
    by_cases h : x / 2 ^ (p + 1) = y / 2 ^ (p + 1)
    · rw [if_pos (by rw [h])]
      exact ⟨hp8, h, hne⟩
    · rw [if_neg (fun e => h (Nat.eq_of_mul_eq_mul_right (Nat.pos_of_neZero _) e))]
      exact ih (p + 1) (by omega) h

theorem byte_border {x y : Nat} (hxy : x < y) (hy : y < 256) :
    bitLoop x y 8 0 < 8 ∧ cut x (bitLoop x y 8 0) = cut y (bitLoop x y 8 0) ∧
    x < cut x (bitLoop x y 8 0) ∧ cut x (bitLoop x y 8 0) ≤ y := by
  have hx : x < 256 := by omega
  obtain ⟨h1, h2, h3⟩ := bitLoop_spec hx hy 8 0 rfl (by rw [Nat.pow_zero]; omega)
  generalize bitLoop x y 8 0 = p at *
  rw [(mask_eq hx h1).2, (mask_eq hy h1).2]
  refine ⟨h1, by rw [h2], ?_⟩
  rw [Nat.pow_succ] at h2 ⊢
  have hq : 0 < 2 ^ p := Nat.pos_of_neZero _
  rw [← Nat.div_div_eq_div_mul, ← Nat.div_div_eq_div_mul] at h2
  rw [← Nat.div_div_eq_div_mul]
  have hdx := Nat.div_add_mod x (2 ^ p)
  have hdy := Nat.div_add_mod y (2 ^ p)
  have hmx := Nat.mod_lt x hq
  have hmy := Nat.mod_lt y hq
  generalize 2 ^ p = q at *
  generalize x / q = a at *
  generalize y / q = b at *
  have hab : a ≤ b := by
    rcases Nat.lt_or_ge b a with h | h
    · exfalso
      have : q * (b + 1) ≤ q * a := Nat.mul_le_mul_left _ h
      rw [Nat.mul_add] at this
      omega
    · exact h
  have ha : a = a / 2 * 2 := by omega
  have hb : b = a / 2 * 2 + 1 := by omega
  generalize a / 2 = c at *
  subst ha hb
  have e1 : q * (c * 2) = c * (q * 2) := by
    rw [Nat.mul_comm q 2, ← Nat.mul_assoc c, Nat.mul_comm q]
  have e2 : q * (c * 2 + 1) = c * (q * 2) + q := by rw [Nat.mul_add, e1, Nat.mul_one]
  omega

theorem borderFlag_split (p : List Nat) {x y : Nat} (s t : List Nat) (h : x ≠ y) :
    borderFlag (p ++ x :: s) (p ++ y :: t) = bitLoop x y 8 0 + 8 * s.length + 1 := by
  induction p with
  | nil =>
    show borderFlag (x :: s) (y :: t) = _
    rw [borderFlag, if_neg h]
  | cons z p ih =>
    show borderFlag (z :: (p ++ x :: s)) (z :: (p ++ y :: t)) = _
    rw [borderFlag, if_pos rfl, ih]

theorem borderAddr_split (p : List Nat) (x : Nat) (s : List Nat) {b : Nat} (hb : b < 8)
    (hs : s.length < 16) :
    borderAddr (b + 8 * s.length + 1) (p ++ x :: s) =
      some (p ++ cut x b :: List.replicate s.length 0) := by
  unfold borderAddr
  have hf : (b + 8 * s.length + 1 + 255) % 256 = b + 8 * s.length := by omega
  simp only [hf]
  have hd : (b + 8 * s.length) / 8 = s.length := by omega
  have hm : (b + 8 * s.length) % 8 = b := by omega
  rw [hd, hm]
  have hlen : (p ++ x :: s).length - s.length - 1 = p.length := by
    rw [List.length_append, List.length_cons]; omega
  rw [if_pos (by rw [List.length_append, List.length_cons]; omega), hlen]
  rw [List.take_left]
  have : (p ++ x :: s).getD p.length 0 = x := by simp
  rw [this]
  simp [cut]

theorem cut_lt (x p : Nat) : cut x p < 256 := Nat.mod_lt _ (by decide)

/-- The border between two addresses, seen from either side. -/
theorem border_between {a b : List Nat} (hl : a.length = b.length) (hn : a.length ≤ 16)
    (ha : ∀ x ∈ a, x < 256) (hb : ∀ x ∈ b, x < 256) (h : beVal a < beVal b) :
    ∃ m, borderAddr (borderFlag a b) a = some m ∧ borderAddr (borderFlag a b) b = some m ∧
      m.length = a.length ∧ (∀ x ∈ m, x < 256) ∧ beVal a < beVal m ∧ beVal m ≤ beVal b ∧
      1 ≤ borderFlag a b ∧ borderFlag a b ≤ 8 * a.length := by
  obtain ⟨p, x, y, s, t, rfl, rfl, hst, hxy⟩ := split_lt a b hl ha hb h
  have hy : y < 256 := hb y (by simp)
  obtain ⟨t1, t2, t3, t4⟩ := byte_border hxy hy
  have hs16 : s.length < 16 := by
    rw [List.length_append, List.length_cons] at hn; omega
  rw [borderFlag_split p s t (Nat.ne_of_lt hxy)]
  have hsb : ∀ z ∈ s, z < 256 := fun z hz => ha z (by simp [hz])
  have hvs := beVal_lt s hsb
  refine ⟨p ++ cut x (bitLoop x y 8 0) :: List.replicate s.length 0,
    borderAddr_split p x s t1 hs16, ?_, ?_, ?_, ?_, ?_, ?_, ?_⟩
  · rw [t2, hst]
    exact borderAddr_split p y t t1 (by omega)
  · simp
  · intro z hz
    rcases List.mem_append.1 hz with hz | hz
    · exact ha z (by simp [hz])
    · rcases List.mem_cons.1 hz with rfl | hz
      · exact cut_lt _ _
      · rw [(List.mem_replicate.1 hz).2]; decide
  · rw [beVal_append, beVal_append, beVal_cons, beVal_cons, beVal_zeros]
    simp only [List.length_cons, List.length_replicate]
    generalize cut x (bitLoop x y 8 0) = c at *
    generalize 256 ^ s.length = q at *
    have : (x + 1) * q ≤ c * q := Nat.mul_le_mul_right _ t3
    rw [Nat.succ_mul] at this
    omega
  · rw [beVal_append, beVal_append, beVal_cons, beVal_cons, beVal_zeros]
    simp only [List.length_cons, List.length_replicate, hst]
    generalize cut x (bitLoop x y 8 0) = c at *
    generalize 256 ^ t.length = q at *
    have : c * q ≤ y * q := Nat.mul_le_mul_right _ t4
    omega
  · omega
  · rw [List.length_append, List.length_cons]; omega

theorem beVal_inj : ∀ (a b : List Nat), a.length = b.length → (∀ x ∈ a, x < 256) →
    (∀ x ∈ b, x < 256) → beVal a = beVal b → a = b := by
  intro a
  induction a with
  | nil => intro b h _ _ _; cases b with
    | nil => rfl
    | cons _ _ => cases h
  | cons x xs ih =>
    intro b h ha hb he
    cases b with
    | nil => cases h
    | cons y ys =>
      have hl : xs.length = ys.length := Nat.succ.inj h
      rw [beVal_cons, beVal_cons, ← hl] at he
      have h1 := beVal_lt xs (fun z hz => ha z (List.mem_cons_of_mem _ hz))
      have h2 := beVal_lt ys (fun z hz => hb z (List.mem_cons_of_mem _ hz))
      rw [← hl] at h2
      obtain ⟨P, hP⟩ : ∃ P, 256 ^ xs.length = P := ⟨_, rfl⟩
      rw [hP] at he h1 h2
      have hxy : x = y := by
        rcases Nat.lt_trichotomy x y with hlt | heq | hgt
        · exfalso
          have : (x + 1) * P ≤ y * P := Nat.mul_le_mul_right P hlt
          rw [Nat.add_mul, Nat.one_mul] at this
          omega
        · exact heq
        · exfalso
          have : (y + 1) * P ≤ x * P := Nat.mul_le_mul_right P hgt
          rw [Nat.add_mul, Nat.one_mul] at this
          omega
      subst hxy
      have : beVal xs = beVal ys := by omega
      rw [ih ys hl (fun z hz => ha z (List.mem_cons_of_mem _ hz))
        (fun z hz => hb z (List.mem_cons_of_mem _ hz)) this]

end Verif.TcPkt
