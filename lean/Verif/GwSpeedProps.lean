import Verif.GwSpeedModel

/-!
# C31: the gateway speed codec
-/

namespace Verif.GwSpeed

private theorem shrink_spec : ∀ (k s e : Nat), 0 < s → s < 33 * 10 ^ k →
    ∃ j u i, shrink k s e = ((shrink k s e).1, e + j) ∧ j ≤ k ∧ 1 ≤ (shrink k s e).1 ∧ (shrink k s e).1 ≤ 32 ∧
      (shrink k s e).1 * 10 ^ j = u * 10 ^ i ∧ u = s / 10 ^ i ∧ (i = 0 ∨ 3 ≤ u) ∧
      (s ≤ 32 → i = 0) ∧ (j = 0 → (shrink k s e).1 = s) := by
  intro k
  induction k with
  | zero =>
    intro s e h0 h1
    exact ⟨0, s, 0, rfl, Nat.le_refl _, h0, by show s ≤ 32; omega, rfl, by simp, .inl rfl, fun _ => rfl, fun _ => rfl⟩
  | succ k ih =>
    intro s e h0 h1
    rw [shrink]
    by_cases hc : s > 32 ∨ s % 10 = 0
    · rw [if_pos hc]
      have ht0 : 0 < s / 10 := by omega
      have ht1 : s / 10 < 33 * 10 ^ k := by
        rw [Nat.pow_succ] at h1; omega
      obtain ⟨j, u, i, e1, e2, e3, e4, e5, e6, e7, e8, e9⟩ := ih (s / 10) (e + 1) ht0 ht1
      refine ⟨j + 1, ?_⟩
      by_cases hs : s > 32
      · refine ⟨u, i + 1, ?_, by omega, e3, e4, ?_, ?_, ?_, fun h => by omega, fun h => by omega⟩
        · rw [e1, show e + 1 + j = e + (j + 1) by omega]
        · rw [Nat.pow_succ, Nat.pow_succ, ← Nat.mul_assoc, ← Nat.mul_assoc, e5]
        · rw [Nat.pow_succ, Nat.mul_comm, ← Nat.div_div_eq_div_mul, e6]
        · right
          rcases e7 with rfl | h
          · rw [Nat.pow_zero, Nat.div_one] at e6; omega
          · exact h
      · have hi : i = 0 := e8 (by omega)
        subst hi
        rw [Nat.pow_zero, Nat.div_one] at e6
        refine ⟨s, 0, ?_, by omega, e3, e4, ?_, by simp, .inl rfl, fun _ => rfl, fun h => by omega⟩
        · rw [e1, show e + 1 + j = e + (j + 1) by omega]
        · rw [Nat.pow_succ, ← Nat.mul_assoc, e5]; omega
    · rw [if_neg hc]
      exact ⟨0, s, 0, rfl, by omega, by show 1 ≤ s; omega, by show s ≤ 32; omega, rfl, by simp, .inl rfl, fun _ => rfl, fun _ => rfl⟩

private theorem scale_eq : ∀ (e s : Nat), s * 10 ^ e < 4294967296 → scale e s = s * 10 ^ e := by
  intro e
  induction e with
  | zero => intro s _; simp [scale]
  | succ e ih =>
    intro s h
    rw [Nat.pow_succ'] at h ⊢
    rw [← Nat.mul_assoc] at h ⊢
    have h10 : s * 10 < 4294967296 := Nat.lt_of_le_of_lt (Nat.le_mul_of_pos_right _ (Nat.pow_pos (by omega))) h
    rw [scale, Nat.mod_eq_of_lt h10, ih _ h]

private theorem pow_le7 (j : Nat) (h : j ≤ 7) : 10 ^ j ≤ 10000000 := by
  have := Nat.pow_le_pow_right (n := 10) (by omega) h
  simpa using this

private theorem decode_encode (s : Nat) (h2 : 2 ≤ s) (hm : s < maxSpeed) :
    ∃ u i, decode (encode s) = u * 10 ^ i ∧ u = s / 10 ^ i ∧ (i = 0 ∨ 3 ≤ u) := by
  obtain ⟨j, u, i, e1, e2, e3, e4, e5, e6, e7, e8, e9⟩ := shrink_spec 7 s 0 (by omega) (by
    have : (33 : Nat) * 10 ^ 7 = 330000000 := by decide
    unfold maxSpeed at hm; omega)
  refine ⟨u, i, ?_, e6, e7⟩
  obtain ⟨q, hq⟩ : ∃ q, q = (shrink 7 s 0).1 := ⟨_, rfl⟩
  rw [← hq] at e1 e3 e4 e5 e9
  have hj7 := pow_le7 j e2
  have henc : encode s = (q - 1) * 8 + j := by
    unfold encode
    rw [if_neg (by omega), if_neg (show ¬ s = 1 by omega)]
    simp only
    rw [if_neg (by omega), e1]
    simp only
    omega
  have hval : q * 10 ^ j ≤ s := by
    rw [e5, e6]; exact Nat.div_mul_le_self _ _
  unfold maxSpeed at hm
  unfold decode
  rw [henc]
  have hne0 : ¬ ((q - 1) * 8 + j = 0) := by
    intro h
    have : j = 0 := by omega
    have := e9 this
    omega
  have hne255 : ¬ ((q - 1) * 8 + j = 255) := by
    intro h
    have hq32 : q = 32 := by omega
    have hj : j = 7 := by omega
    subst hq32; subst hj
    have : (32 : Nat) * 10 ^ 7 = 320000000 := by decide
    omega
  rw [if_neg hne0, if_neg hne255, show ((q - 1) * 8 + j) % 8 = j by omega, show ((q - 1) * 8 + j) / 8 + 1 = q by omega,
    scale_eq j q (by omega), e5]

/-- **C31.**  For every speed from 2 kbit/s up to the maximum: what the receiver decodes is not more than the
speed announced, and less than a quarter is lost; speeds up to 32 kbit/s are exact. -/
theorem C31_decode_bounds (s : Nat) (h2 : 2 ≤ s) (hm : s < 320000000) :
    decode (encode s) ≤ s ∧ 4 * (s - decode (encode s)) < s ∧ (s ≤ 32 → decode (encode s) = s) := by
  obtain ⟨u, i, h1, h2', h3⟩ := decode_encode s h2 hm
  rw [h1]
  have hle : u * 10 ^ i ≤ s := by rw [h2']; exact Nat.div_mul_le_self _ _
  have hmod : s = u * 10 ^ i + s % 10 ^ i := by
    rw [h2', Nat.mul_comm]; exact (Nat.div_add_mod s (10 ^ i)).symm
  have hlt : s % 10 ^ i < 10 ^ i := Nat.mod_lt _ (Nat.pow_pos (by omega))
  have h3' : i = 0 ∨ 3 * 10 ^ i ≤ u * 10 ^ i := h3.imp id fun h => Nat.mul_le_mul_right _ h
  refine ⟨hle, ?_, ?_⟩
  · rcases h3' with rfl | h
    · have : s % 10 ^ 0 = 0 := Nat.mod_one s
      omega
    · omega
  · intro h32
    rcases h3 with rfl | h
    · have : s % 10 ^ 0 = 0 := Nat.mod_one s
      omega
    · cases i with
      | zero => have : s % 10 ^ 0 = 0 := Nat.mod_one s; omega
      | succ i =>
        have hp : 0 < 10 ^ i := Nat.pow_pos (by omega)
        have : 3 * (10 * 10 ^ i) ≤ s := by
          rw [← Nat.pow_succ']; exact Nat.le_trans (Nat.mul_le_mul_right _ h) hle
        have hs : s = 30 ∨ s = 31 ∨ s = 32 := by omega
        have hdec : ∀ s, 30 ≤ s → s ≤ 32 → decode (encode s) = s := by
          intro s a b
          have : s = 30 ∨ s = 31 ∨ s = 32 := by omega
          rcases this with rfl | rfl | rfl <;> decide
        have := hdec s (by omega) h32
        rw [← h1]; exact this

/-- **C31.**  The remaining inputs: 0 stays 0, 1 becomes 2 (never zero), and everything from the maximum on
becomes the maximum. -/
theorem C31_special (s : Nat) :
    decode (encode 0) = 0 ∧ decode (encode 1) = 2 ∧ (320000000 ≤ s → decode (encode s) = 320000000) := by
  refine ⟨by decide, by decide, ?_⟩
  intro h
  have : encode s = 255 := by
    unfold encode
    rw [if_neg (by omega), if_neg (show ¬ s = 1 by omega)]
    simp only
    rw [if_pos h]
  rw [this]; decide

/-- **C31.**  Every byte a gateway may send is decoded to a speed that, encoded again, decodes to the same speed. -/
theorem C31_reencode : ∀ b < 256, decode (encode (decode b)) = decode b ∧ decode b ≤ 320000000 := by decide +kernel

example : encode 3999 = 19 ∧ decode 19 = 3000 ∧ decode (encode 128000) = 120000 ∧ decode (encode 39) = 30 := by decide

/-- **C31, addition**: the encoding is not monotone: 33 kbit/s is announced as 30, less than 32 kbit/s. -/
theorem C31_not_monotone : decode (encode 32) = 32 ∧ decode (encode 33) = 30 := by decide

end Verif.GwSpeed
