import Verif.MantissaModel

namespace Verif.Mantissa

theorem findB_spec (u : Nat) (hu : u < 2 ^ 27) : ∀ (fuel b : Nat), 28 ≤ fuel + b → b ≤ 27 → (b = 0 ∨ 2 ^ (b - 1) ≤ u) →
    ∃ r, findB u fuel b = some r ∧ b ≤ r ∧ r ≤ 27 ∧ u < 2 ^ r ∧ (r = 0 ∨ 2 ^ (r - 1) ≤ u) := by
  intro fuel
  induction fuel with
  | zero => intro b h hb; omega
  | succ n ih =>
    intro b h hb hlow
    have hb32 : b < 32 := by omega
    have hp : (2:Nat) ^ b < 4294967296 := by
      have : (2:Nat) ^ b ≤ 2 ^ 27 := Nat.pow_le_pow_right (by decide) hb
      omega
    simp only [findB, shl32, hb32, if_true, wrap32, Nat.one_mul, Nat.mod_eq_of_lt hp]
    by_cases hge : u ≥ 2 ^ b
    · rw [if_pos hge]
      have hb' : b + 1 ≤ 27 := by
        rcases Nat.lt_or_ge b 27 with h1 | h1
        · omega
        · have : b = 27 := by omega
          subst this; omega
      obtain ⟨r, h1, h2, h3, h4, h5⟩ := ih (b+1) (by omega) hb' (Or.inr (by simpa using hge))
      exact ⟨r, h1, by omega, h3, h4, h5⟩
    · rw [if_neg hge]
      exact ⟨b, rfl, Nat.le_refl _, hb, by omega, hlow⟩

/-- exact value of the encoder for every 32-bit interval -/
theorem relToMe_cases (i : Nat) (hi : i < 2 ^ 32) :
    (i < 125 ∧ relToMe i = some 16) ∨
    (4096000 ≤ i ∧ relToMe i = some 255) ∨
    (∃ b, 1 ≤ b ∧ b ≤ 15 ∧ 125 * 2 ^ (b - 1) ≤ i ∧ i < 125 * 2 ^ b ∧
      relToMe i = some (((i * 32 / (125 * 2 ^ b)) - 16) * 16 + b) ∧
      16 ≤ i * 32 / (125 * 2 ^ b) ∧ i * 32 / (125 * 2 ^ b) ≤ 31) := by
  have hu : i / 125 * 2 < 2 ^ 27 := by omega
  obtain ⟨r, h1, -, h3, h4, h5⟩ := findB_spec (i / 125 * 2) hu 40 0 (by omega) (by omega) (Or.inl rfl)
  have hw : wrap32 (i / 125 * 2) = i / 125 * 2 := by unfold wrap32; omega
  have hr : mantissaOf i r = relToMe i := by
    unfold relToMe; rw [hw, h1]
  have hcases : r = 0 ∨ r = 1 ∨ r = 2 ∨ r = 3 ∨ r = 4 ∨ r = 5 ∨ r = 6 ∨ r = 7 ∨ r = 8 ∨ r = 9 ∨ r = 10 ∨ r = 11 ∨
     r = 12 ∨ r = 13 ∨ r = 14 ∨ r = 15 ∨ r = 16 ∨ 17 ≤ r := by omega
  have hor : ∀ x y : Nat, x < 16 → y < 16 → (x * 16) ||| y = x * 16 + y := by
    have h : ∀ x < 16, ∀ y < 16, (x * 16) ||| y = x * 16 + y := by decide
    intro x y hx hy; exact h x hx y hy
  by_cases hbig : 17 ≤ r
  · right; left
    have : 2 ^ 16 ≤ 2 ^ (r - 1) := Nat.pow_le_pow_right (by decide) (by omega)
    have h5' : 2 ^ (r-1) ≤ i / 125 * 2 := by rcases h5 with h | h <;> omega
    refine ⟨by omega, ?_⟩
    rw [← hr]
    simp only [mantissaOf, show r ≠ 0 by omega, if_false, show r - 1 > 15 by omega, if_true]
    rfl
  · by_cases h0 : r = 0
    · left; subst h0
      refine ⟨by omega, ?_⟩
      rw [← hr]; rfl
    · right; right
      have hr1 : r ≠ 1 := by
        intro h; subst h; simp at h5 h4; omega
      refine ⟨r - 1, by omega, by omega, ?_⟩
      have h5' : 2 ^ (r-1) ≤ i / 125 * 2 := by rcases h5 with h | h <;> omega
      clear h1 hw hcases h5
      have hlt : r < 17 := by omega
      clear hbig
      rw [← hr]; clear hr
      have hc : r = 2 ∨ r = 3 ∨ r = 4 ∨ r = 5 ∨ r = 6 ∨ r = 7 ∨ r = 8 ∨ r = 9 ∨ r = 10 ∨ r = 11 ∨
        r = 12 ∨ r = 13 ∨ r = 14 ∨ r = 15 ∨ r = 16 := by omega
      have pack : ∀ (q b : Nat), q < 16 → b < 16 →
          ((q % 256 % 16 * 16) ||| ((b + q % 256 / 16) % 256 % 16)) = q * 16 + b := by
        intro q b hq hb
        have e1 : q % 256 = q := by omega
        have e2 : q % 16 = q := by omega
        have e3 : q / 16 = 0 := by omega
        rw [e1, e2, e3, hor _ _ hq (by omega)]; omega
      have sub : ∀ c : Nat, c ≤ i → c ≤ 4294967296 → (i + 4294967296 - c) % 4294967296 = i - c := by
        intro c h1 h2; omega
      rcases hc with h|h|h|h|h|h|h|h|h|h|h|h|h|h|h <;> subst h <;>
      · simp only [mantissaOf, shl32, wrap32] at h4 h5' ⊢
        simp only [Nat.reduceSub, Nat.reduceMul, Nat.reducePow, Nat.reduceMod, Nat.reduceLT, Nat.reduceLeDiff,
          Nat.reduceEqDiff, ge_iff_le, gt_iff_lt, if_true, if_false, Option.map] at h4 h5' ⊢
        refine ⟨by omega, by omega, ?_, by omega, by omega⟩
        rw [sub _ (by omega) (by omega)]
        first
          | rw [pack _ _ (by omega) (by omega)]; congr 1; omega
          | (rw [Nat.mod_eq_of_lt (b := 4294967296) (by omega), pack _ _ (by omega) (by omega)]; congr 1; omega)


theorem meToRel_pack (q b : Nat) (hq : 16 ≤ q) (hb : b < 16) :
    meToRel ((q - 16) * 16 + b) = if b ≥ 8 then (q * 2 ^ (b - 8)) * 1000 else (q * 1000) / 2 ^ (8 - b) := by
  have k1 : ((q - 16) * 16 + b) / 16 = q - 16 := by omega
  have k2 : ((q-16) * 16 + b) % 16 = b := by omega
  have k3 : 16 + (q - 16) = q := by omega
  simp only [meToRel, k1, k2, k3]

/-- value of the decoder on the codes produced in the main case -/
theorem decode_main (i b : Nat) (h1 : 1 ≤ b) (h2 : b ≤ 15) (hlo : 125 * 2 ^ (b - 1) ≤ i) (hhi : i < 125 * 2 ^ b) :
    meToRel (((i * 32 / (125 * 2 ^ b)) - 16) * 16 + b) = (i * 32 / (125 * 2 ^ b)) * (1000 * 2 ^ b) / 256 ∧
    125 * 2 ^ (b - 1) ≤ meToRel (((i * 32 / (125 * 2 ^ b)) - 16) * 16 + b) ∧
    meToRel (((i * 32 / (125 * 2 ^ b)) - 16) * 16 + b) ≤ i ∧
    16 * i < 16 * meToRel (((i * 32 / (125 * 2 ^ b)) - 16) * 16 + b) + i + 16 := by
  have hc : b = 1 ∨ b = 2 ∨ b = 3 ∨ b = 4 ∨ b = 5 ∨ b = 6 ∨ b = 7 ∨ b = 8 ∨ b = 9 ∨ b = 10 ∨ b = 11 ∨
      b = 12 ∨ b = 13 ∨ b = 14 ∨ b = 15 := by omega
  rcases hc with h|h|h|h|h|h|h|h|h|h|h|h|h|h|h <;> subst h <;>
  · simp only [Nat.reduceSub, Nat.reduceMul, Nat.reducePow] at hlo hhi ⊢
    rw [meToRel_pack _ _ (by omega) (by decide)]
    simp only [Nat.reduceLeDiff, Nat.reduceSub, Nat.reducePow, ge_iff_le, if_true, if_false]
    refine ⟨?_, ?_, ?_, ?_⟩ <;> omega

end Verif.Mantissa
