import Verif.SchedTimeModel

/-!
# C07, C09: deadlines across the clock wrap, and timer jitter

Specification: real time is an unbounded number of milliseconds; the code only
sees it modulo `2^32`.
-/

namespace Verif.SchedTime

/-- A deadline set `d` ms ahead at real time `t0` is not expired at any real time before `t0 + d`. -/
theorem C07_not_expired_before (t0 d t : Nat) (hd : d < 2 ^ 31) (h0 : t0 ≤ t) (h1 : t < t0 + d) :
    isTimedOut (t % W) (getTimestamp (t0 % W) d) = false := by
  unfold isTimedOut getTimestamp
  split <;> simp only [decide_eq_false_iff_not] <;> omega

/-- ... and is expired at every real time from `t0 + d` on for the next `2^31 - 1` ms. -/
theorem C07_expired_after (t0 d t : Nat) (h0 : t0 + d ≤ t) (h1 : t < t0 + d + 2 ^ 31) :
    isTimedOut (t % W) (getTimestamp (t0 % W) d) = true := by
  unfold isTimedOut getTimestamp
  split <;> simp only [decide_eq_true_iff] <;> omega

/-- non-trivial instance: the clock wraps between setting the deadline and checking it -/
example : isTimedOut ((2 ^ 32 + 4999) % W) (getTimestamp ((2 ^ 32 - 5000) % W) 10000) = false ∧
          isTimedOut ((2 ^ 32 + 5000) % W) (getTimestamp ((2 ^ 32 - 5000) % W) 10000) = true := by decide

private theorem toInt32_lt (u : Nat) (h : u < H) : toInt32 u = (u : Int) := by
  unfold toInt32; rw [if_pos h]

private theorem negInt32_nat (u : Nat) : negInt32 (u : Int) = some (-(u : Int)) := by
  unfold negInt32; rw [if_neg (by omega)]

/-- **C07, exact form.**  For every pair of 32-bit readings, a deadline counts as expired exactly if
fewer than 2^31 ms have passed since it on the circular clock; at exactly 2^31 ms (the antipode, where
past and future coincide) the numerically smaller value counts as the earlier one. -/
theorem C07_expired_iff (now s : Nat) (hn : now < 2 ^ 32) (hs : s < 2 ^ 32) :
    isTimedOut now s = true ↔
      (now + 2 ^ 32 - s) % 2 ^ 32 < 2 ^ 31 ∨ ((now + 2 ^ 32 - s) % 2 ^ 32 = 2 ^ 31 ∧ s ≤ now) := by
  unfold isTimedOut
  split
  · rw [decide_eq_true_iff]; omega
  · rw [decide_eq_true_iff]; omega

example : isTimedOut 5 (2 ^ 32 - 10) = true ∧ isTimedOut (2 ^ 32 - 10) 5 = false ∧
    isTimedOut (2 ^ 31) 0 = true ∧ isTimedOut 0 (2 ^ 31) = false := by decide

/-- The remaining time reported for a deadline less than `2^31` ms away in either direction is exact
up to one millisecond, and never undefined. -/
theorem C07_time_due_close (t0 d t : Nat) (hd : d < 2 ^ 31) (h0 : t0 ≤ t) (h1 : t < t0 + d + 2 ^ 31) :
    ∃ r, getTimeDue (t % W) (getTimestamp (t0 % W) d) = some r ∧
      r - ((t0 + d : Nat) - (t : Nat) : Int) ≤ 1 ∧ ((t0 + d : Nat) - (t : Nat) : Int) - r ≤ 1 ∧
      (((t0 % W) + d < W ∧ t0 / W = t / W) → r = ((t0 + d : Nat) - (t : Nat) : Int)) := by
  unfold getTimeDue getTimestamp
  by_cases hs : (t0 % W + d) % W > t % W
  · rw [if_pos hs]
    by_cases hb : (t0 % W + d) % W - t % W > H
    · simp only [if_pos hb]
      rw [toInt32_lt _ (by omega), negInt32_nat]
      refine ⟨_, rfl, by omega, by omega, ?_⟩
      rintro ⟨_, _⟩; omega
    · simp only [if_neg hb]
      by_cases h31 : (t0 % W + d) % W - t % W < H
      · rw [toInt32_lt _ h31]
        refine ⟨_, rfl, by omega, by omega, ?_⟩
        rintro ⟨_, _⟩; omega
      · exfalso; omega
  · rw [if_neg hs]
    by_cases hb : t % W - (t0 % W + d) % W > H
    · simp only [if_pos hb]
      rw [toInt32_lt _ (by omega)]
      refine ⟨_, rfl, by omega, by omega, ?_⟩
      rintro ⟨_, _⟩; omega
    · simp only [if_neg hb]
      by_cases h31 : t % W - (t0 % W + d) % W < H
      · rw [toInt32_lt _ h31, negInt32_nat]
        refine ⟨_, rfl, by omega, by omega, ?_⟩
        rintro ⟨_, _⟩; omega
      · exfalso; omega

/-- The "exact" version is false: across the wrap the remaining time is one millisecond short. -/
theorem C07_time_due_inexact :
    ∃ t0 d t : Nat, d < 2 ^ 31 ∧ t0 ≤ t ∧ t < t0 + d ∧
      getTimeDue (t % W) (getTimestamp (t0 % W) d) = some (((t0 + d : Nat) : Int) - (t : Int) - 1) :=
  ⟨2 ^ 32 - 5000, 10000, 2 ^ 32 - 5000, by decide, by decide, by decide, by decide⟩

/-- Exactly `2^31` ms after a deadline the remaining-time query negates `INT32_MIN`. -/
theorem C07_time_due_overflow (now s : Nat) (hs : s + 2 ^ 31 = now) :
    getTimeDue now s = none := by
  unfold getTimeDue
  rw [if_neg (by omega)]
  have e : now - s = H := by omega
  simp only [e]
  decide

example : getTimeDue 2147483648 0 = none := by decide

/-! ### C09 -/

/-- A jittered timer expires no later than `rel` and no earlier than `rel` minus `pct` percent after
now; in particular a timer with a non-zero period never expires immediately.  `random` ranges over
everything `olsr_random` may legally return. -/
theorem C09_jitter_bounds (now rel pct random : Nat) (hrel : rel < 2 ^ 32) (hr : random ≤ 2147483647) :
    ∃ delay, calcJitter now rel pct random = (now + delay) % W ∧ delay ≤ rel ∧
      100 * (rel - delay) ≤ pct * rel ∧ (0 < rel → 0 < delay) := by
  unfold calcJitter
  by_cases hc : pct = 0 ∨ pct > 99 ∨ rel > 16777216
  · rw [if_pos hc]
    exact ⟨rel, rfl, Nat.le_refl _, by simp, id⟩
  · rw [if_neg hc]
    have hp0 : pct ≠ 0 := fun h => hc (Or.inl h)
    have hp1 : pct ≤ 99 := by omega
    have hr1 : rel ≤ 16777216 := by omega
    have hmul : pct * rel ≤ 99 * rel := Nat.mul_le_mul_right _ hp1
    have hmod : pct * rel % W = pct * rel := Nat.mod_eq_of_lt (by omega)
    simp only [hmod]
    generalize hjt : pct * rel / 100 = jt
    have hjt1 : 100 * jt ≤ pct * rel := by omega
    have hle : random / (1 + 2147483647 / (jt + 1)) ≤ jt := by
      have h1 : random < (1 + 2147483647 / (jt + 1)) * (jt + 1) := by
        have := Nat.lt_mul_div_succ 2147483647 (show 0 < jt + 1 by omega)
        rw [Nat.mul_comm, Nat.add_comm 1]; omega
      exact Nat.le_of_lt_succ (Nat.div_lt_of_lt_mul h1)
    generalize random / (1 + 2147483647 / (jt + 1)) = j at *
    have hjrel : jt ≤ rel := by omega
    refine ⟨rel - j, ?_, by omega, by omega, ?_⟩
    · unfold getTimestamp
      rw [show (rel + W - j) % W = rel - j by omega]
    · intro h; omega

example : calcJitter 1000 5000 25 2147483647 = 1000 + 3750 ∧ calcJitter 1000 5000 25 0 = 1000 + 5000 := by decide

/-- `olsr_random` returns `abs(value)` of a random 32-bit number; for `INT32_MIN` that call is itself
undefined and on real hardware yields `2^31`, one above `OLSR_RANDOM_MAX`.  Then the jitter bound is
exceeded (by one millisecond at most; the timer still has a positive delay). -/
theorem C09_jitter_out_of_range_random :
    ∃ now rel pct, ∀ delay, calcJitter now rel pct 2147483648 = (now + delay) % W → delay ≤ rel →
      ¬ (100 * (rel - delay) ≤ pct * rel) :=
  ⟨0, 12, 25, by
    intro delay h hle
    have : calcJitter 0 12 25 2147483648 = 8 := by decide
    rw [this] at h
    omega⟩

end Verif.SchedTime
