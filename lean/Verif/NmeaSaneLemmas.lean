import Verif.NmeaSaneSpec

/-!
# Lemmas for C147
-/

namespace Verif.NmeaSane

theorem raise_ge {lo : Int} {m : Nat} {x : Int} (h : lo ≤ x) : raise lo m x = x := by
  unfold raise; rw [if_neg (by omega)]

theorem lower_le {hi : Int} {m : Nat} {x : Int} (h : x ≤ hi) : lower hi m x = x := by
  unfold lower; rw [if_neg (by omega)]

theorem raise_ok (lo : Int) (m : Nat) (hm : 0 < m) (x : Int) :
    (∃ k : Int, raise lo m x = x + k * m) ∧ lo ≤ raise lo m x ∧ (x < lo → raise lo m x < lo + m) := by
  induction x using raise.induct lo m with
  | case1 x h ih =>
    unfold raise
    rw [if_pos h]
    obtain ⟨⟨k, hk⟩, h2, h3⟩ := ih
    refine ⟨⟨k + 1, by rw [hk, Int.add_mul]; omega⟩, h2, fun _ => ?_⟩
    by_cases hx : x + m < lo
    · exact h3 hx
    · rw [raise_ge (by omega)]; omega
  | case2 x h =>
    unfold raise
    rw [if_neg h]
    exact ⟨⟨0, by omega⟩, by omega, fun hx => by omega⟩

theorem lower_ok (hi : Int) (m : Nat) (hm : 0 < m) (x : Int) :
    (∃ k : Int, lower hi m x = x + k * m) ∧ lower hi m x ≤ hi ∧ (x > hi → hi - m < lower hi m x) := by
  induction x using lower.induct hi m with
  | case1 x h ih =>
    unfold lower
    rw [if_pos h]
    obtain ⟨⟨k, hk⟩, h2, h3⟩ := ih
    refine ⟨⟨k - 1, by rw [hk, Int.sub_mul]; omega⟩, h2, fun _ => ?_⟩
    by_cases hx : x - m > hi
    · exact h3 hx
    · rw [lower_le (by omega)]; omega
  | case2 x h =>
    unfold lower
    rw [if_neg h]
    exact ⟨⟨0, by omega⟩, by omega, fun hx => by omega⟩

/-- Both loops bring a value into a range that is at least as long as the step, by whole steps. -/
theorem wrap_ok (lo hi : Int) (m : Nat) (hm : 0 < m) (hr : lo + m ≤ hi + 1) (x : Int) :
    (∃ k : Int, lower hi m (raise lo m x) = x + k * m) ∧ lo ≤ lower hi m (raise lo m x) ∧ lower hi m (raise lo m x) ≤ hi := by
  obtain ⟨⟨k, hk⟩, h2, _⟩ := raise_ok lo m hm x
  obtain ⟨⟨l, hl⟩, g2, g3⟩ := lower_ok hi m hm (raise lo m x)
  refine ⟨⟨k + l, by rw [hl, hk, Int.add_mul]; omega⟩, ?_, g2⟩
  by_cases h : raise lo m x > hi
  · have := g3 h; omega
  · rw [lower_le (by omega)]; exact h2

theorem wrap_id (lo hi : Int) (m : Nat) (x : Int) (h1 : lo ≤ x) (h2 : x ≤ hi) : lower hi m (raise lo m x) = x := by
  rw [raise_ge h1, lower_le h2]

theorem azimuth_ok (a : Nat) : doAzimuth a = a % 360 := by
  induction a using doAzimuth.induct with
  | case1 a h ih => unfold doAzimuth; rw [if_pos h, ih]; omega
  | case2 a h => unfold doAzimuth; rw [if_neg h]; omega

theorem sat_fine (s : Sat) : SatFine (doSat s) ∧ (doSat s).prn = s.prn := by
  obtain ⟨_, h1, h2⟩ := wrap_ok (-180) 180 360 (by decide) (by decide) s.elv
  unfold doSat SatFine turn
  obtain ⟨e, he⟩ : ∃ e, e = lower 180 360 (raise (-180) 360 s.elv) := ⟨_, rfl⟩
  rw [← he] at h1 h2 ⊢
  simp only [azimuth_ok]
  refine ⟨⟨?_, ?_, ?_, ?_⟩, trivial⟩
  · split
    · simp only []; omega
    · split
      · simp only []; omega
      · simp only []; omega
  · split
    · simp only []; omega
    · split
      · simp only []; omega
      · simp only []; omega
  · omega
  · split <;> omega

theorem sat_id (s : Sat) (h : SatFine s) : doSat s = s := by
  obtain ⟨h1, h2, h3, h4⟩ := h
  unfold doSat
  rw [wrap_id (-180) 180 360 s.elv (by omega) (by omega)]
  have : turn s.elv s.azi = (s.elv, s.azi) := by
    unfold turn; rw [if_neg (by omega), if_neg (by omega)]
  rw [this]
  simp only [azimuth_ok]
  rw [Nat.mod_eq_of_lt (by omega), if_neg (by omega)]

theorem sats_split (a b : List Sat) (ha : ∀ s ∈ a, s.prn ≠ 0) (hb : ∀ s ∈ b, s.prn = 0) : doSats (a ++ b) = a.map doSat ++ b := by
  induction a with
  | nil =>
    cases b with
    | nil => rfl
    | cons x b => simp only [List.nil_append, List.map_nil]; unfold doSats; rw [if_pos (hb x (by simp))]
  | cons y a ih =>
    simp only [List.cons_append, List.map_cons]
    unfold doSats
    rw [if_neg (ha y (by simp)), ih (fun s hs => ha s (by simp [hs]))]

theorem compact_id (a b : List Sat) (ha : ∀ s ∈ a, s.prn ≠ 0) (hb : ∀ s ∈ b, s.prn = 0) : compact (a ++ b) = a ++ b := by
  unfold compact
  rw [List.filter_append, List.filter_append]
  rw [List.filter_eq_self.mpr (fun s hs => by simpa using ha s hs), List.filter_eq_nil_iff.mpr (fun s hs => by simpa using hb s hs),
    List.filter_eq_nil_iff.mpr (fun s hs => by simpa using ha s hs), List.filter_eq_self.mpr (fun s hs => by simpa using hb s hs)]
  simp

/-- The satellites afterwards. -/
theorem view_eq (l : List Sat) :
    doSats (compact l) = (l.filter (fun s => decide (s.prn ≠ 0))).map doSat ++ l.filter (fun s => decide (s.prn = 0)) := by
  unfold compact
  exact sats_split _ _ (fun s hs => by simpa using (List.mem_filter.mp hs).2) (fun s hs => by simpa using (List.mem_filter.mp hs).2)

end Verif.NmeaSane
