import Verif.LqModel

/-!
# C35: link costs
-/

namespace Verif.Lq

private theorem div_lt (A x y : Nat) (h0 : 0 < x) (h : x < y) (hA : x * y ≤ A) : A / y < A / x := by
  have hq : x ≤ A / y := (Nat.le_div_iff_mul_le (by omega)).2 hA
  have h1 : A / y * y ≤ A := Nat.div_mul_le_self _ _
  obtain ⟨q, hq'⟩ : ∃ q, A / y = q := ⟨_, rfl⟩
  rw [hq'] at hq h1 ⊢
  have : (q + 1) * x ≤ A := by
    have h2 : q * (x + 1) ≤ q * y := Nat.mul_le_mul_left _ h
    have h3 : (q + 1) * x = q * x + x := by rw [Nat.add_mul, Nat.one_mul]
    have h4 : q * (x + 1) = q * x + q := by rw [Nat.mul_add, Nat.mul_one]
    omega
  exact (Nat.le_div_iff_mul_le h0).2 this

private theorem prod_bounds {l n : Nat} (hl : 25 ≤ l) (hl' : l ≤ 255) (hn : 25 ≤ n) (hn' : n ≤ 255) :
    625 ≤ l * n ∧ l * n ≤ 65025 :=
  ⟨Nat.mul_le_mul hl hn, Nat.mul_le_mul hl' hn'⟩

private theorem ffRaw {l n : Nat} (hl : 25 ≤ l) (hl' : l ≤ 255) (hn : 25 ≤ n) (hn' : n ≤ 255) :
    1024 ≤ 255 * 255 * 1024 / (l * n) ∧ 255 * 255 * 1024 / (l * n) ≤ 106536 := by
  obtain ⟨h1, h2⟩ := prod_bounds hl hl' hn hn'
  constructor
  · exact (Nat.le_div_iff_mul_le (by omega)).2 (by omega)
  · have : 255 * 255 * 1024 / (l * n) ≤ 255 * 255 * 1024 / 625 := Nat.div_le_div_left h1 (by omega)
    omega

private theorem costFf_eq {l n : Nat} (hl : 25 ≤ l) (hl' : l ≤ 255) (hn : 25 ≤ n) (hn' : n ≤ 255) :
    costFf l n = 255 * 255 * 1024 / (l * n) := by
  have h := ffRaw hl hl' hn hn'
  unfold costFf clampCost broken
  rw [if_neg (by omega), if_neg (by omega), if_neg (by omega)]

/-- **C35 (etx_ff).**  A link is broken exactly if one of its qualities is below the usable minimum 25/255;
otherwise it costs at least 1.0 (1024) and less than `LINK_COST_BROKEN`. -/
theorem C35_ff_range (l n : Nat) (hl : l ≤ 255) (hn : n ≤ 255) :
    (costFf l n = 2 ^ 22 ↔ l < 25 ∨ n < 25) ∧ 1024 ≤ costFf l n ∧ costFf l n ≤ 2 ^ 22 ∧ costFf 255 255 = 1024 := by
  by_cases h : l < 25 ∨ n < 25
  · have : costFf l n = 2 ^ 22 := by unfold costFf; rw [if_pos h]
    rw [this]
    exact ⟨by simp [h], by decide, Nat.le_refl _, by decide⟩
  · have h1 := ffRaw (l := l) (n := n) (by omega) hl (by omega) hn
    rw [costFf_eq (by omega) hl (by omega) hn]
    refine ⟨?_, h1.1, by omega, by decide⟩
    constructor
    · intro h2; omega
    · intro h2; exact absurd h2 h

/-- **C35 (etx_ff).**  A link that is better in one direction and not worse in the other costs strictly less. -/
theorem C35_ff_strict (l n l' n' : Nat) (hl : 25 ≤ l) (hn : 25 ≤ n) (hll : l ≤ l') (hnn : n ≤ n')
    (hl' : l' ≤ 255) (hn' : n' ≤ 255) (hs : l < l' ∨ n < n') : costFf l' n' < costFf l n := by
  rw [costFf_eq hl (by omega) hn (by omega), costFf_eq (by omega) hl' (by omega) hn']
  -- move one coordinate at a time
  have step : ∀ a b c : Nat, 25 ≤ a → a ≤ 255 → 25 ≤ b → b < c → c ≤ 255 →
      255 * 255 * 1024 / (a * c) < 255 * 255 * 1024 / (a * b) := by
    intro a b c h1 h2 h3 h4 h5
    rw [← Nat.div_div_eq_div_mul, ← Nat.div_div_eq_div_mul]
    apply div_lt _ _ _ (by omega) h4
    have h6 : 255 * 1024 ≤ 255 * 255 * 1024 / a := (Nat.le_div_iff_mul_le (by omega)).2 (by omega)
    have h7 : b * c ≤ 254 * 255 := Nat.mul_le_mul (by omega) h5
    omega
  have le : ∀ a b c : Nat, 25 ≤ a → a ≤ 255 → 25 ≤ b → b ≤ c → c ≤ 255 →
      255 * 255 * 1024 / (a * c) ≤ 255 * 255 * 1024 / (a * b) := by
    intro a b c h1 h2 h3 h4 h5
    rcases Nat.lt_or_eq_of_le h4 with h | rfl
    · exact Nat.le_of_lt (step a b c h1 h2 h3 h h5)
    · exact Nat.le_refl _
  rcases hs with h | h
  · have h1 := step n' l l' (by omega) hn' hl h hl'
    have h2 := le l n n' hl (by omega) hn hnn hn'
    rw [Nat.mul_comm n' l', Nat.mul_comm n' l] at h1
    omega
  · have h1 := step l n n' hl (by omega) hn h hn'
    have h2 := le n' l l' (by omega) hn' hl hll hl'
    rw [Nat.mul_comm n' l', Nat.mul_comm n' l] at h2
    omega

example : costFf 128 255 = 2040 ∧ costFf 127 255 = 2056 ∧ costFf 25 25 = 106536 ∧ costFf 24 255 = 4194304 := by decide

private theorem bump {l : Nat} (h : 25 ≤ l) (_ : l ≤ 255) :
    26 ≤ (if l > 0 ∧ l < 255 then l + 1 else l) ∧ (if l > 0 ∧ l < 255 then l + 1 else l) ≤ 255 := by
  split <;> omega

private theorem bump_mono {l l' : Nat} (h : 25 ≤ l) (hll : l ≤ l') (h' : l' ≤ 255) :
    (if l > 0 ∧ l < 255 then l + 1 else l) ≤ (if l' > 0 ∧ l' < 255 then l' + 1 else l') := by
  split <;> split <;> omega

private theorem costFfeth_eq {l n : Nat} (hl : 25 ≤ l) (hl' : l ≤ 255) (hn : 25 ≤ n) (hn' : n ≤ 255) :
    costFfeth l n = (if l = 255 ∧ n = 255 then 102 else
      255 * 255 * 1024 / ((if l > 0 ∧ l < 255 then l + 1 else l) * (if n > 0 ∧ n < 255 then n + 1 else n))) := by
  have hb := bump hl hl'
  have hb' := bump hn hn'
  have h := ffRaw (by omega) hb.2 (by omega) hb'.2
  unfold costFfeth
  rw [if_neg (by omega)]
  simp only
  by_cases hc : l = 255 ∧ n = 255
  · rw [if_pos hc, if_pos hc]
    obtain ⟨rfl, rfl⟩ := hc
    decide
  · rw [if_neg hc, if_neg hc]
    unfold clampCost broken
    rw [if_neg (by omega), if_neg (by omega)]

/-- **C35 (etx_ffeth).**  Broken exactly below the usable minimum; otherwise between 0.1 (102, reached exactly by a
perfect Ethernet link) and `LINK_COST_BROKEN`. -/
theorem C35_ffeth_range (l n : Nat) (hl : l ≤ 255) (hn : n ≤ 255) :
    (costFfeth l n = 2 ^ 22 ↔ l < 25 ∨ n < 25) ∧ 102 ≤ costFfeth l n ∧ costFfeth l n ≤ 2 ^ 22 ∧
      (costFfeth l n < 1024 ↔ l = 255 ∧ n = 255) := by
  by_cases h : l < 25 ∨ n < 25
  · have : costFfeth l n = 2 ^ 22 := by unfold costFfeth; rw [if_pos h]
    rw [this]
    exact ⟨by simp [h], by decide, Nat.le_refl _, by omega⟩
  · have hb := bump (l := l) (by omega) hl
    have hb' := bump (l := n) (by omega) hn
    have h1 := ffRaw (by omega) hb.2 (by omega) hb'.2
    rw [costFfeth_eq (by omega) hl (by omega) hn]
    by_cases hc : l = 255 ∧ n = 255
    · rw [if_pos hc]; omega
    · rw [if_neg hc]; omega

/-- **C35 (etx_ffeth).**  Better qualities never cost more. -/
theorem C35_ffeth_mono (l n l' n' : Nat) (hll : l ≤ l') (hnn : n ≤ n') (hl' : l' ≤ 255) (hn' : n' ≤ 255) :
    costFfeth l' n' ≤ costFfeth l n := by
  by_cases h : l < 25 ∨ n < 25
  · have : costFfeth l n = 2 ^ 22 := by unfold costFfeth; rw [if_pos h]
    rw [this]
    exact (C35_ffeth_range l' n' hl' hn').2.2.1
  · by_cases hc : l' = 255 ∧ n' = 255
    · have h2 := (C35_ffeth_range l n (by omega) (by omega)).2.1
      rw [costFfeth_eq (l := l') (n := n') (by omega) hl' (by omega) hn', if_pos hc]
      exact h2
    · rw [costFfeth_eq (l := l') (n := n') (by omega) hl' (by omega) hn',
        costFfeth_eq (l := l) (n := n) (by omega) (by omega) (by omega) (by omega), if_neg hc,
        if_neg (show ¬ (l = 255 ∧ n = 255) by omega)]
      have hb := bump (l := l) (by omega) (by omega)
      have hb' := bump (l := n) (by omega) (by omega)
      exact Nat.div_le_div_left (Nat.mul_le_mul (bump_mono (by omega) hll hl') (bump_mono (by omega) hnn hn'))
        (Nat.mul_pos (by omega) (by omega))

example : costFfeth 255 255 = 102 ∧ costFfeth 254 254 = 1024 ∧ costFfeth 100 100 = 6527 := by decide

private theorem fpmRaw {l n : Nat} (hl : 25 ≤ l) (hl' : l ≤ 255) (hn : 25 ≤ n) (hn' : n ≤ 255) :
    65535 ≤ 65535 * 255 / l ∧ 65535 ≤ 65535 * 255 / l * 255 / n := by
  have h1 : 65535 ≤ 65535 * 255 / l := (Nat.le_div_iff_mul_le (by omega)).2 (Nat.mul_le_mul_left _ hl')
  exact ⟨h1, (Nat.le_div_iff_mul_le (by omega)).2 (Nat.mul_le_mul h1 hn')⟩

private theorem mul_div_le (B l k : Nat) : B / l * k ≤ B * k / l := by
  by_cases h : l = 0
  · subst h; simp
  · refine (Nat.le_div_iff_mul_le (by omega)).2 ?_
    rw [Nat.mul_assoc, Nat.mul_comm k l, ← Nat.mul_assoc]
    exact Nat.mul_le_mul_right _ (Nat.div_mul_le_self _ _)

private theorem fpm_strict (B l n l' n' : Nat) (hB : 65535 * 255 ≤ B) (hl : 25 ≤ l) (hn : 25 ≤ n) (hll : l ≤ l')
    (hnn : n ≤ n') (hl' : l' ≤ 255) (hn' : n' ≤ 255) (hs : l < l' ∨ n < n') :
    B / l' * 255 / n' < B / l * 255 / n := by
  have hle : B / l' ≤ B / l := Nat.div_le_div_left hll (by omega)
  have hlr : 65535 ≤ B / l :=
    (Nat.le_div_iff_mul_le (by omega)).2 (Nat.le_trans (Nat.mul_le_mul_left _ (show l ≤ 255 by omega)) hB)
  rcases hs with h | h
  · have h1 : B / l' < B / l := by
      apply div_lt _ _ _ (by omega) h
      have : l * l' ≤ 254 * 255 := Nat.mul_le_mul (by omega) hl'
      omega
    have h2 : B / l' * 255 / n' ≤ B / l' * 255 / n := Nat.div_le_div_left hnn (by omega)
    have h3 : B / l' * 255 + n ≤ B / l * 255 := by omega
    have h4 : (B / l' * 255 + n) / n ≤ B / l * 255 / n := Nat.div_le_div_right h3
    rw [Nat.add_div_right _ (by omega)] at h4
    omega
  · have h1 : B / l * 255 / n' < B / l * 255 / n := by
      apply div_lt _ _ _ (by omega) h
      have h5 : n * n' ≤ 254 * 255 := Nat.mul_le_mul (by omega) hn'
      exact Nat.le_trans h5 (Nat.le_trans (by decide) (Nat.mul_le_mul_right 255 hlr))
    exact Nat.lt_of_le_of_lt (Nat.div_le_div_right (Nat.mul_le_mul_right _ hle)) h1

private theorem fpm_strict_clamp (x y : Nat) (h : x < y) (hx : 65535 ≤ x) :
    clampCost x < clampCost y ∨ clampCost y = 2 ^ 22 := by
  unfold clampCost broken
  by_cases hb : y ≥ 4194304
  · right; rw [if_pos hb]
  · left
    rw [if_neg hb, if_neg (show ¬ y = 0 by omega), if_neg (by omega), if_neg (by omega)]
    exact h

/-- **C35 (etx_fpm), partial.**  Below the usable minimum the link is broken; the cost is at least 1.0 (65535),
reached by perfect qualities, and at most `LINK_COST_BROKEN`.  The converse of the first part fails, see
`C35_fpm_usable_broken`. -/
theorem C35_fpm_range_partial (l n : Nat) (hl : l ≤ 255) (hn : n ≤ 255) :
    (l < 25 ∨ n < 25 → costFpm l n = 2 ^ 22) ∧ 65535 ≤ costFpm l n ∧ costFpm l n ≤ 2 ^ 22 ∧
      costFpm 255 255 = 65535 ∧ (1100 ≤ l * n → ¬ (l < 25 ∨ n < 25) → costFpm l n < 2 ^ 22) := by
  by_cases h : l < 25 ∨ n < 25
  · have : costFpm l n = 2 ^ 22 := by unfold costFpm; rw [if_pos h]
    rw [this]
    exact ⟨fun _ => rfl, by decide, Nat.le_refl _, by decide, fun _ h' => absurd h h'⟩
  · have h1 := (fpmRaw (l := l) (n := n) (by omega) hl (by omega) hn).2
    unfold costFpm clampCost broken
    rw [if_neg h]
    refine ⟨fun h' => absurd h' h, ?_, ?_, by decide, ?_⟩
    · split
      · decide
      · split <;> omega
    · split
      · omega
      · split <;> omega
    · intro hp _
      have h2 : 65535 * 255 / l * 255 / n ≤ 65535 * 255 * 255 / (l * n) := by
        rw [← Nat.div_div_eq_div_mul]
        exact Nat.div_le_div_right (mul_div_le _ _ _)
      have h3 : 65535 * 255 * 255 / (l * n) ≤ 65535 * 255 * 255 / 1100 := Nat.div_le_div_left hp (by omega)
      split
      · omega
      · split <;> omega

/-- **C35 (etx_fpm).**  A better link costs strictly less, unless the worse one already counts as broken. -/
theorem C35_fpm_strict (l n l' n' : Nat) (hl : 25 ≤ l) (hn : 25 ≤ n) (hll : l ≤ l') (hnn : n ≤ n')
    (hl' : l' ≤ 255) (hn' : n' ≤ 255) (hs : l < l' ∨ n < n') :
    costFpm l' n' < costFpm l n ∨ costFpm l n = 2 ^ 22 := by
  have hraw := fpm_strict (65535 * 255) l n l' n' (Nat.le_refl _) hl hn hll hnn hl' hn' hs
  have hr' := (fpmRaw (l := l') (n := n') (by omega) hl' (by omega) hn').2
  unfold costFpm
  rw [if_neg (show ¬ (l' < 25 ∨ n' < 25) by omega), if_neg (show ¬ (l < 25 ∨ n < 25) by omega)]
  exact fpm_strict_clamp _ _ hraw hr'

/-- **C35 (etx_fpm), negation**: a link whose two qualities are both at the usable minimum is reported broken. -/
theorem C35_fpm_usable_broken : costFpm 25 25 = 2 ^ 22 ∧ costFpm 25 40 = 2 ^ 22 ∧ costFpm 25 41 < 2 ^ 22 := by decide

end Verif.Lq
