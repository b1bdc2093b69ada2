import Verif.LqModel

/-!
# C37: the exponential average of etx_fpm
-/

namespace Verif.Lq

private theorem u32_some {x : Nat} (h : x < 4294967296) : u32 x = some x := if_pos h

private theorem divUp_some {x m k : Nat} (hk : m - 1 = k) (h : x + k < 4294967296) :
    divUp x m = some ((x + k) / m) := by
  subst hk
  unfold divUp
  rw [u32_some h]; rfl

/-- the value after the aging step, before a reception is added -/
private def aged (a v : Nat) : Nat := (v * 257 * (65535 - a) + 65534) / 65535

private theorem aged_le (a v : Nat) (hv : v ≤ 255) : aged a v ≤ 65535 - a := by
  unfold aged
  have h : v * 257 * (65535 - a) ≤ 65535 * (65535 - a) := Nat.mul_le_mul_right _ (by omega)
  omega

private theorem average_eq (a mult v : Nat) (lost : Bool) (ha : a ≤ 65535) (hm : mult ≤ 65536) (hv : v ≤ 255) :
    average a mult v lost =
      some (((aged a v + if lost then 0 else (a * mult + 65535) / 65536) * 255 + 65534) / 65535) ∧
    (aged a v + if lost then 0 else (a * mult + 65535) / 65536) ≤ 65535 := by
  have hag := aged_le a v hv
  have h1 : v * 257 * (65535 - a) ≤ 65535 * 65535 := Nat.mul_le_mul (by omega) (by omega)
  have h2 : a * mult ≤ a * 65536 := Nat.mul_le_mul_left _ hm
  have hr : (a * mult + 65535) / 65536 ≤ a := by omega
  have hsum : (aged a v + if lost then 0 else (a * mult + 65535) / 65536) ≤ 65535 := by
    split <;> omega
  refine ⟨?_, hsum⟩
  have hout : ((aged a v + if lost then 0 else (a * mult + 65535) / 65536) * 255 + 65534) / 65535 < 256 := by
    obtain ⟨x, hx⟩ : ∃ x, (aged a v + if lost then 0 else (a * mult + 65535) / 65536) = x := ⟨_, rfl⟩
    rw [hx] at hsum ⊢
    omega
  have hv' : v * 65535 / 255 = v * 257 := by omega
  unfold average
  rw [u32_some (x := v * 65535) (by omega), Option.bind_some, hv',
    u32_some (x := v * 257 * (65535 - a)) (by omega), Option.bind_some,
    divUp_some (x := v * 257 * (65535 - a)) (k := 65534) (m := 65535) rfl (by omega), Option.bind_some]
  change aged a v ≤ _ at hag
  rw [show (v * 257 * (65535 - a) + 65534) / 65535 = aged a v from rfl]
  have hend : ∀ x, x ≤ 65535 → (x * 255 + 65534) / 65535 < 256 →
      ((u32 (x * 255)).bind fun x => (divUp x 65535).bind fun out => if out < 256 then some out else none) =
        some ((x * 255 + 65534) / 65535) := by
    intro x h1 h2
    rw [u32_some (by omega), Option.bind_some, divUp_some (k := 65534) (m := 65535) rfl (by omega), Option.bind_some,
      if_pos h2]
  cases lost with
  | true =>
    simp only [if_true, Nat.add_zero] at hout hsum ⊢
    rw [Option.bind_some]
    exact hend _ hsum hout
  | false =>
    simp only [Bool.false_eq_true, if_false] at hout hsum ⊢
    rw [u32_some (x := a * mult) (by omega), Option.bind_some,
      divUp_some (k := 65535) (m := 65536) rfl (by omega), Option.bind_some, u32_some (by omega), Option.bind_some]
    exact hend _ hsum hout

/-- the factor in force -/
private def factor (a : Nat) (s : Fpm) : Nat := if s.quickstart < 12 then 16383 else a

private theorem step_some (a mult : Nat) (s : Fpm) (lost : Bool) (ha : a ≤ 65535) (hm : mult ≤ 65536)
    (hv : s.valueLq ≤ 255) : ∃ s', s.step a mult lost = some s' ∧
      average (factor a s) mult s.valueLq lost = some s'.valueLq ∧ s'.valueLq ≤ 255 ∧
      s'.quickstart = (if s.quickstart < 12 then s.quickstart + 1 else s.quickstart) := by
  unfold Fpm.step factor
  by_cases hq : s.quickstart < 12
  · simp only [if_pos hq]
    obtain ⟨h1, h2⟩ := average_eq 16383 mult s.valueLq lost (by omega) hm hv
    rw [h1]
    refine ⟨_, rfl, rfl, ?_, rfl⟩
    simp only
    obtain ⟨x, hx⟩ : ∃ x, (aged 16383 s.valueLq + if lost then 0 else (16383 * mult + 65535) / 65536) = x := ⟨_, rfl⟩
    rw [hx] at h2 ⊢
    omega
  · simp only [if_neg hq]
    obtain ⟨h1, h2⟩ := average_eq a mult s.valueLq lost ha hm hv
    rw [h1]
    refine ⟨_, rfl, rfl, ?_, rfl⟩
    simp only
    obtain ⟨x, hx⟩ : ∃ x, (aged a s.valueLq + if lost then 0 else (a * mult + 65535) / 65536) = x := ⟨_, rfl⟩
    rw [hx] at h2 ⊢
    omega

/-- **C37.**  For every aging factor, every loss multiplier up to 1.0 and every sequence of received and lost HELLOs
no intermediate result overflows and the quality stays in 0..255. -/
theorem C37_in_range (a mult : Nat) (ha : a ≤ 65535) (hm : mult ≤ 65536) :
    ∀ (hellos : List Bool) (s : Fpm), s.valueLq ≤ 255 →
      ∃ s', s.run a mult hellos = some s' ∧ s'.valueLq ≤ 255 := by
  intro hellos
  induction hellos with
  | nil => intro s h; exact ⟨s, rfl, h⟩
  | cons l ls ih =>
    intro s h
    obtain ⟨s', h1, _, h2, _⟩ := step_some a mult s l ha hm h
    obtain ⟨s'', h3, h4⟩ := ih s' h2
    exact ⟨s'', by rw [Fpm.run, h1]; exact h3, h4⟩

private theorem mul_split (v a : Nat) (ha : a ≤ 65535) : v * 257 * (65535 - a) + 257 * (v * a) = v * 257 * 65535 := by
  rw [show 257 * (v * a) = v * 257 * a by rw [← Nat.mul_assoc, Nat.mul_comm 257 v], ← Nat.mul_add]
  congr 1
  omega

/-- **C37.**  With the neutral loss multiplier a received HELLO never lowers the quality. -/
theorem C37_received (a : Nat) (s s' : Fpm) (ha : a ≤ 65535) (hv : s.valueLq ≤ 255)
    (h : s.step a 65536 false = some s') : s.valueLq ≤ s'.valueLq := by
  obtain ⟨s'', h1, h2, _, _⟩ := step_some a 65536 s false ha (Nat.le_refl _) hv
  rw [h] at h1
  cases h1
  have hf : factor a s ≤ 65535 := by unfold factor; split <;> omega
  obtain ⟨h3, _⟩ := average_eq (factor a s) 65536 s.valueLq false hf (Nat.le_refl _) hv
  rw [h3] at h2
  have h2 := (Option.some.inj h2).symm
  simp only [Bool.false_eq_true, if_false] at h2
  have h4 := mul_split s.valueLq (factor a s) hf
  have h5 : s.valueLq * factor a s ≤ 255 * factor a s := Nat.mul_le_mul_right _ hv
  unfold aged at h2
  generalize hp : s.valueLq * factor a s = p at h4 h5
  generalize hw : s.valueLq * 257 * (65535 - factor a s) = w at h2 h4
  generalize factor a s = f at *
  generalize s.valueLq = v at *
  generalize s'.valueLq = v' at *
  omega

private theorem lost_step (a mult : Nat) (s s' : Fpm) (ha : a ≤ 65535) (hm : mult ≤ 65536) (hv : s.valueLq ≤ 255)
    (h : s.step a mult true = some s') :
    s'.valueLq ≤ s.valueLq ∧ (65535 ≤ s.valueLq * factor a s → s'.valueLq < s.valueLq) ∧
      (s.valueLq * factor a s < 65535 → s'.valueLq = s.valueLq) := by
  obtain ⟨s'', h1, h2, _, _⟩ := step_some a mult s true ha hm hv
  rw [h] at h1
  cases h1
  have hf : factor a s ≤ 65535 := by unfold factor; split <;> omega
  obtain ⟨h3, _⟩ := average_eq (factor a s) mult s.valueLq true hf hm hv
  rw [h3] at h2
  have h2 := (Option.some.inj h2).symm
  simp only [if_true] at h2
  have h4 := mul_split s.valueLq (factor a s) hf
  unfold aged at h2
  generalize hp : s.valueLq * factor a s = p at h4 ⊢
  generalize hw : s.valueLq * 257 * (65535 - factor a s) = w at h2 h4
  generalize factor a s = f at *
  generalize s.valueLq = v at *
  generalize s'.valueLq = v' at *
  refine ⟨by omega, by omega, by omega⟩

private theorem run_lost (a mult : Nat) (ha : a ≤ 65535) (hm : mult ≤ 65536) : ∀ (n : Nat) (s s' : Fpm),
    s.valueLq ≤ 255 → s.run a mult (List.replicate n true) = some s' →
    s'.valueLq ≤ s.valueLq ∧ (12 - s.quickstart + s.valueLq ≤ n → s'.valueLq * a < 65535) := by
  intro n
  induction n with
  | zero =>
    intro s s' hv h
    cases h
    refine ⟨Nat.le_refl _, fun h => ?_⟩
    have : s.valueLq = 0 := by omega
    rw [this]; omega
  | succ n ih =>
    intro s s' hv h
    rw [List.replicate_succ, Fpm.run] at h
    obtain ⟨s1, h1, _, h2, h3⟩ := step_some a mult s true ha hm hv
    rw [h1] at h
    obtain ⟨h4, h5⟩ := ih s1 s' h2 h
    obtain ⟨l1, l2, l3⟩ := lost_step a mult s s1 ha hm hv h1
    refine ⟨by omega, fun hn => ?_⟩
    by_cases hq : s.quickstart < 12
    · rw [if_pos hq] at h3
      exact h5 (by omega)
    · rw [if_neg hq] at h3
      have hf : factor a s = a := by unfold factor; rw [if_neg hq]
      rw [hf] at l2
      by_cases hs : 65535 ≤ s.valueLq * a
      · have := l2 hs
        exact h5 (by omega)
      · have : s'.valueLq * a ≤ s.valueLq * a := Nat.mul_le_mul_right _ (by omega)
        omega

/-- **C37, partial.**  Under permanent loss the quality never rises and after at most 267 lost HELLOs it is below
`65535 / aging_factor_new`, i.e. below 255 divided by 255 times the aging factor.  The full statement would say that
it reaches zero; that is false, see `C37_loss_stalls`. -/
theorem C37_loss_partial (a mult n : Nat) (s s' : Fpm) (ha : a ≤ 65535) (hm : mult ≤ 65536) (hv : s.valueLq ≤ 255)
    (h : s.run a mult (List.replicate n true) = some s') :
    s'.valueLq ≤ s.valueLq ∧ (267 ≤ n → s'.valueLq * a < 65535) := by
  obtain ⟨h1, h2⟩ := run_lost a mult ha hm n s s' hv h
  exact ⟨h1, fun hn => h2 (by omega)⟩

/-- **C37, negation**: with the permitted aging factor 0.01 (`aging_factor_new` 655) the quality of a link that is
lost for good stays at 100/255 for ever. -/
theorem C37_loss_stalls (n : Nat) : Fpm.run 655 65536 ⟨100, 12⟩ (List.replicate n true) = some ⟨100, 12⟩ := by
  induction n with
  | zero => rfl
  | succ n ih =>
    rw [List.replicate_succ, Fpm.run, show Fpm.step 655 65536 ⟨100, 12⟩ true = some ⟨100, 12⟩ from by decide +kernel]
    exact ih

private theorem aged_mono (a v v' : Nat) (h : v ≤ v') : aged a v ≤ aged a v' := by
  unfold aged
  exact Nat.div_le_div_right (Nat.add_le_add_right (Nat.mul_le_mul_right _ (Nat.mul_le_mul_right _ h)) _)

/-- **C37, negation**: every link that was better than 100/255 ends there when it is lost for good. -/
theorem C37_loss_stalls_from (v n : Nat) (hv : 100 ≤ v) (hv' : v ≤ 255) (hn : 255 ≤ n) :
    Fpm.run 655 65536 ⟨v, 12⟩ (List.replicate n true) = some ⟨100, 12⟩ := by
  have hlow : ∀ (n v : Nat), 100 ≤ v → v ≤ 255 →
      ∃ s', Fpm.run 655 65536 ⟨v, 12⟩ (List.replicate n true) = some s' ∧ 100 ≤ s'.valueLq ∧ s'.quickstart = 12 := by
    intro n
    induction n with
    | zero => intro v h _; exact ⟨⟨v, 12⟩, rfl, h, rfl⟩
    | succ n ih =>
      intro v h h'
      obtain ⟨s1, h1, h2, h3, h4⟩ := step_some 655 65536 ⟨v, 12⟩ true (by omega) (by omega) h'
      have hf : factor 655 ⟨v, 12⟩ = 655 := rfl
      obtain ⟨h5, _⟩ := average_eq 655 65536 v true (by omega) (by omega) h'
      rw [hf] at h2
      rw [h5] at h2
      have h6 := Option.some.inj h2
      simp only [if_true, Nat.add_zero] at h6
      have h7 := aged_mono 655 100 v h
      have h8 : aged 655 100 = 25444 := by decide
      obtain ⟨s', r1, r2, r3⟩ := ih s1.valueLq (by omega) h3
      refine ⟨s', ?_, r2, r3⟩
      rw [List.replicate_succ, Fpm.run, h1]
      have : s1 = ⟨s1.valueLq, 12⟩ := by
        cases s1; simp only at h4 ⊢; rw [h4]; rfl
      rw [this]
      exact r1
  obtain ⟨s', h1, h2, h3⟩ := hlow n v hv hv'
  have h4 := (run_lost 655 65536 (by omega) (by omega) n ⟨v, 12⟩ s' hv' h1).2 (by simp only; omega)
  rw [h1]
  cases s' with
  | mk a q =>
    simp only at h2 h3 h4
    have : a = 100 := by omega
    rw [this, h3]

example : Fpm.run 3276 65536 ⟨0, 0⟩ [false, false, true, false] = some ⟨128, 4⟩ := by decide +kernel

end Verif.Lq
