import Verif.CrcModel

/-!
# Algebra of the checksum register

The bit step is linear over exclusive or and injective; the table-driven byte step is
eight bit steps of the register with the byte added in.
-/

namespace Verif.Crc

theorem lsb (x : BitVec 32) : (x &&& 1#32 ≠ 0#32) ↔ x.getLsbD 0 = true := by
  constructor
  · intro h
    by_cases hx : x.getLsbD 0 = true
    · exact hx
    · exfalso; apply h
      apply BitVec.eq_of_getLsbD_eq
      intro i hi
      rw [BitVec.getLsbD_and, BitVec.getLsbD_one, BitVec.getLsbD_zero]
      rcases Nat.eq_zero_or_pos i with rfl | hp
      · simp at hx ; simp [hx]
      · have : decide (i = 0) = false := by simp; omega
        simp; omega
  · intro hx h
    have := congrArg (fun y => y.getLsbD 0) h
    simp only [BitVec.getLsbD_and, hx, BitVec.getLsbD_one, BitVec.getLsbD_zero] at this
    exact absurd this (by decide)

theorem bitStep_even {x : BitVec 32} (h : x.getLsbD 0 = false) : bitStep x = x >>> 1 := by
  unfold bitStep
  rw [if_neg]
  rw [lsb, h]; exact fun h => by cases h

theorem bitStep_odd {x : BitVec 32} (h : x.getLsbD 0 = true) : bitStep x = (x >>> 1) ^^^ poly := by
  unfold bitStep
  rw [if_pos]
  rw [lsb, h]

theorem bitStep_xor (a b : BitVec 32) : bitStep (a ^^^ b) = bitStep a ^^^ bitStep b := by
  have hx : (a ^^^ b).getLsbD 0 = (a.getLsbD 0 ^^ b.getLsbD 0) := BitVec.getLsbD_xor
  cases ha : a.getLsbD 0 <;> cases hb : b.getLsbD 0 <;> rw [ha, hb] at hx
  · rw [bitStep_even ha, bitStep_even hb, bitStep_even hx, BitVec.ushiftRight_xor_distrib]
  · rw [bitStep_even ha, bitStep_odd hb, bitStep_odd hx, BitVec.ushiftRight_xor_distrib]; ac_rfl
  · rw [bitStep_odd ha, bitStep_even hb, bitStep_odd hx, BitVec.ushiftRight_xor_distrib]; ac_rfl
  · rw [bitStep_odd ha, bitStep_odd hb, bitStep_even hx, BitVec.ushiftRight_xor_distrib]
    rw [show ∀ p q r : BitVec 32, (p ^^^ r) ^^^ (q ^^^ r) = p ^^^ q ^^^ (r ^^^ r) by intros; ac_rfl,
      BitVec.xor_self, BitVec.xor_zero]

theorem bitStep_eq_zero {x : BitVec 32} (h : bitStep x = 0#32) : x = 0#32 := by
  cases h0 : x.getLsbD 0
  · rw [bitStep_even h0] at h
    apply BitVec.eq_of_getLsbD_eq
    intro i hi
    rw [BitVec.getLsbD_zero]
    cases i with
    | zero => exact h0
    | succ i =>
      have := congrArg (fun y => y.getLsbD i) h
      simp only [BitVec.getLsbD_ushiftRight, BitVec.getLsbD_zero] at this
      rw [Nat.add_comm i 1]; exact this
  · rw [bitStep_odd h0] at h
    have := congrArg (fun y => y.getLsbD 31) h
    simp only [BitVec.getLsbD_xor, BitVec.getLsbD_ushiftRight, BitVec.getLsbD_zero] at this
    rw [BitVec.getLsbD_of_ge x (1 + 31) (by omega)] at this
    exact absurd this (by decide)

theorem xor_eq_zero {w : Nat} {a b : BitVec w} (h : a ^^^ b = 0#w) : a = b := by
  have : a ^^^ b ^^^ b = 0#w ^^^ b := by rw [h]
  rw [BitVec.xor_assoc, BitVec.xor_self, BitVec.xor_zero, BitVec.zero_xor] at this
  exact this

theorem bitStep_inj {a b : BitVec 32} (h : bitStep a = bitStep b) : a = b := by
  apply xor_eq_zero
  apply bitStep_eq_zero
  rw [bitStep_xor, h, BitVec.xor_self]

theorem bitSteps_inj (n : Nat) {a b : BitVec 32} (h : bitSteps n a = bitSteps n b) : a = b := by
  induction n generalizing a b with
  | zero => exact h
  | succ n ih => exact bitStep_inj (ih h)

theorem bitSteps_xor (n : Nat) (a b : BitVec 32) : bitSteps n (a ^^^ b) = bitSteps n a ^^^ bitSteps n b := by
  induction n generalizing a b with
  | zero => rfl
  | succ n ih => rw [bitSteps, bitStep_xor, ih, bitSteps, bitSteps]

theorem bitSteps_add (m n : Nat) (a : BitVec 32) : bitSteps (m + n) a = bitSteps n (bitSteps m a) := by
  induction m generalizing a with
  | zero => rw [Nat.zero_add, bitSteps]
  | succ m ih => rw [show m + 1 + n = (m + n) + 1 by omega, bitSteps, bitSteps, ih]

theorem bitSteps_shift (n : Nat) (x : BitVec 32) (h : ∀ i, i < n → x.getLsbD i = false) :
    bitSteps n x = x >>> n := by
  induction n generalizing x with
  | zero => rw [bitSteps, BitVec.ushiftRight_zero]
  | succ n ih =>
    rw [bitSteps, bitStep_even (h 0 (by omega)), ih]
    · rw [← BitVec.shiftRight_add, Nat.add_comm]
    · intro i hi
      rw [BitVec.getLsbD_ushiftRight]
      exact h _ (by omega)

theorem byteStep_eq (c : BitVec 32) (b : BitVec 8) : byteStep c b = bitSteps 8 (c ^^^ b.zeroExtend 32) := by
  unfold byteStep table
  have h : c ^^^ b.zeroExtend 32 = ((c >>> 8) <<< 8) ^^^ (c.truncate 8 ^^^ b).zeroExtend 32 := by
    apply BitVec.eq_of_getLsbD_eq
    intro i hi
    simp only [BitVec.getLsbD_xor, BitVec.getLsbD_shiftLeft, BitVec.getLsbD_ushiftRight,
      BitVec.truncate_eq_setWidth, BitVec.getLsbD_setWidth]
    by_cases h8 : i < 8
    · simp [hi, h8]
    · simp [hi, h8, show 8 + (i - 8) = i by omega, BitVec.getLsbD_of_ge b i (by omega)]
  rw [h, bitSteps_xor]
  congr 1
  rw [bitSteps_shift 8]
  · apply BitVec.eq_of_getLsbD_eq
    intro i hi
    simp only [BitVec.getLsbD_shiftLeft, BitVec.getLsbD_ushiftRight]
    by_cases h8 : 8 + i < 32
    · simp [h8]
    · simp [h8]; exact BitVec.getLsbD_of_ge c _ (by omega)
  · intro i hi
    simp only [BitVec.getLsbD_shiftLeft]
    simp [hi]

/-- injective in the register for every byte -/
theorem byteStep_inj_crc {c d : BitVec 32} {b : BitVec 8} (h : byteStep c b = byteStep d b) : c = d := by
  rw [byteStep_eq, byteStep_eq] at h
  have := bitSteps_inj 8 h
  apply xor_eq_zero
  have h2 : (c ^^^ b.zeroExtend 32) ^^^ (d ^^^ b.zeroExtend 32) = 0#32 := by rw [this, BitVec.xor_self]
  rw [show ∀ p q r : BitVec 32, (p ^^^ r) ^^^ (q ^^^ r) = p ^^^ q ^^^ (r ^^^ r) by intros; ac_rfl,
      BitVec.xor_self, BitVec.xor_zero] at h2
  exact h2

theorem foldl_inj {bs : List (BitVec 8)} {c d : BitVec 32} (h : bs.foldl byteStep c = bs.foldl byteStep d) : c = d := by
  induction bs generalizing c d with
  | nil => exact h
  | cons b bs ih =>
    rw [List.foldl_cons, List.foldl_cons] at h
    exact byteStep_inj_crc (ih h)

/-- four bytes as the register sees them, least significant first -/
def word (b0 b1 b2 b3 : BitVec 8) : BitVec 32 :=
  b0.zeroExtend 32 ^^^ (b1.zeroExtend 32 <<< 8) ^^^ (b2.zeroExtend 32 <<< 16) ^^^ (b3.zeroExtend 32 <<< 24)

theorem shl_steps (n : Nat) (b : BitVec 8) (hn : n + 8 ≤ 32) : bitSteps n (b.zeroExtend 32 <<< n) = b.zeroExtend 32 := by
  rw [bitSteps_shift]
  · apply BitVec.eq_of_getLsbD_eq
    intro i hi
    simp only [BitVec.getLsbD_shiftLeft, BitVec.getLsbD_ushiftRight, BitVec.truncate_eq_setWidth, BitVec.getLsbD_setWidth]
    by_cases h8 : i < 8
    · simp [hi, show n + i < 32 by omega]
    · simp [BitVec.getLsbD_of_ge b i (by omega)]
  · intro i hi
    simp only [BitVec.getLsbD_shiftLeft]
    simp [hi]

theorem four_steps (c : BitVec 32) (b0 b1 b2 b3 : BitVec 8) :
    [b0, b1, b2, b3].foldl byteStep c = bitSteps 32 (c ^^^ word b0 b1 b2 b3) := by
  simp only [List.foldl_cons, List.foldl_nil, byteStep_eq]
  unfold word
  have e1 : bitSteps 8 (c ^^^ b0.zeroExtend 32) ^^^ b1.zeroExtend 32
      = bitSteps 8 (c ^^^ b0.zeroExtend 32 ^^^ (b1.zeroExtend 32 <<< 8)) := by
    rw [bitSteps_xor 8 (c ^^^ b0.zeroExtend 32), shl_steps 8 b1 (by omega)]
  rw [e1, ← bitSteps_add 8 8]
  have e2 : ∀ x : BitVec 32, bitSteps 16 x ^^^ b2.zeroExtend 32 = bitSteps 16 (x ^^^ (b2.zeroExtend 32 <<< 16)) := by
    intro x
    rw [bitSteps_xor 16 x, shl_steps 16 b2 (by omega)]
  have e3 : ∀ x : BitVec 32, bitSteps 24 x ^^^ b3.zeroExtend 32 = bitSteps 24 (x ^^^ (b3.zeroExtend 32 <<< 24)) := by
    intro x
    rw [bitSteps_xor 24 x, shl_steps 24 b3 (by omega)]
  rw [e2, ← bitSteps_add 16 8, e3, ← bitSteps_add 24 8]
  rw [← BitVec.xor_assoc, ← BitVec.xor_assoc, ← BitVec.xor_assoc]

theorem word_inj {a0 a1 a2 a3 b0 b1 b2 b3 : BitVec 8} (h : word a0 a1 a2 a3 = word b0 b1 b2 b3) :
    a0 = b0 ∧ a1 = b1 ∧ a2 = b2 ∧ a3 = b3 := by
  have hb : ∀ i, i < 8 → ∀ c0 c1 c2 c3 : BitVec 8,
      (word c0 c1 c2 c3).getLsbD i = c0.getLsbD i ∧ (word c0 c1 c2 c3).getLsbD (8 + i) = c1.getLsbD i ∧
      (word c0 c1 c2 c3).getLsbD (16 + i) = c2.getLsbD i ∧ (word c0 c1 c2 c3).getLsbD (24 + i) = c3.getLsbD i := by
    intro i hi c0 c1 c2 c3
    have g : ∀ (c : BitVec 8) j, 8 ≤ j → c.getLsbD j = false := fun c j hj => BitVec.getLsbD_of_ge c j hj
    unfold word
    simp only [BitVec.getLsbD_xor, BitVec.getLsbD_shiftLeft, BitVec.truncate_eq_setWidth, BitVec.getLsbD_setWidth]
    refine ⟨?_, ?_, ?_, ?_⟩
    · simp [show i < 32 by omega, hi, show i < 16 by omega, show i < 24 by omega]
    · simp [show 8 + i < 32 by omega, show 8 + i < 16 by omega, show 8 + i < 24 by omega,
        show i < 32 by omega]
    · simp [show 16 + i < 32 by omega, show ¬ 16 + i < 16 by omega, show 16 + i < 24 by omega,
        g c0 (16 + i) (by omega), g c1 (16 + i - 8) (by omega), show i < 32 by omega]
    · simp [show 24 + i < 32 by omega, g c0 (24 + i) (by omega), g c1 (24 + i - 8) (by omega),
        g c2 (24 + i - 16) (by omega), show i < 32 by omega]
  have ha : ∀ i, i < 8 → _ := fun i hi => hb i hi a0 a1 a2 a3
  have hc : ∀ i, i < 8 → _ := fun i hi => hb i hi b0 b1 b2 b3
  rw [h] at ha
  refine ⟨?_, ?_, ?_, ?_⟩ <;> apply BitVec.eq_of_getLsbD_eq <;> intro i hi
  · rw [← (ha i hi).1, (hc i hi).1]
  · rw [← (ha i hi).2.1, (hc i hi).2.1]
  · rw [← (ha i hi).2.2.1, (hc i hi).2.2.1]
  · rw [← (ha i hi).2.2.2, (hc i hi).2.2.2]

end Verif.Crc
