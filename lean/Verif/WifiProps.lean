import Verif.WifiModel

/-!
# C156: the link quality of wireless stations
-/

namespace Verif.Wifi

private theorem bw_eq (b : Nat) (h : 1 ≤ b) (h2 : b ≤ 540) :
    ∃ x p, 540 * x ≤ 1024 * b ∧ 1024 * b < 540 * x + 540 ∧ bandwidthPenalty b = p ∧ 1024 * p ≤ (1024 - x) * 255 ∧ (1024 - x) * 255 < 1024 * p + 1024 ∧
      x ≤ 1024 ∧ p ≤ 255 := by
  have e : bandwidthPenalty b = ((1024 - ((b * 1024 / 540 : Nat) : Int)) * 255 / 1024 % 256).toNat := by
    unfold bandwidthPenalty
    rw [if_neg (by omega)]
    simp only []
    rw [Int.tdiv_eq_ediv_of_nonneg (a := (b : Int) * 1024) (by omega), Int.tdiv_eq_ediv_of_nonneg (by omega)]
    have : (b : Int) * 1024 / 10 / 54 = ((b * 1024 / 540 : Nat) : Int) := by omega
    rw [this]
  obtain ⟨x, hx⟩ : ∃ x, x = b * 1024 / 540 := ⟨_, rfl⟩
  rw [← hx] at e
  have q : x ≤ 1024 := by omega
  refine ⟨x, (1024 - x) * 255 / 1024, by omega, by omega, ?_, by omega, by omega, q, by omega⟩
  rw [e]
  have : (1024 - (x : Int)) * 255 / 1024 = (((1024 - x) * 255 / 1024 : Nat) : Int) := by omega
  rw [this]
  omega

/-- Up to the reference of 54 Mbit/s the penalty is the missing part of it, of 255, up to less than 1; no rate, no penalty. -/
theorem C156_bandwidth_partial (b : Nat) (h1 : 1 ≤ b) (h2 : b ≤ 540) :
    bandwidthPenalty 0 = 0 ∧ bandwidthPenalty b ≤ 255 ∧ 255 * (540 - b) < 540 * (bandwidthPenalty b + 1) ∧
    540 * bandwidthPenalty b < 255 * (540 - b) + 540 ∧ ∀ b', b ≤ b' → b' ≤ 540 → bandwidthPenalty b' ≤ bandwidthPenalty b := by
  obtain ⟨x, p, a1, a2, a3, a4, a5, a6, a7⟩ := bw_eq b h1 h2
  rw [a3]
  refine ⟨rfl, by omega, by omega, by omega, fun b' q1 q2 => ?_⟩
  obtain ⟨x', p', c1, c2, c3, c4, c5, c6, c7⟩ := bw_eq b' (by omega) q2
  rw [c3]
  have : x < x' + 1 := by omega
  omega

example : bandwidthPenalty 270 = 127 ∧ bandwidthPenalty 540 = 0 ∧ bandwidthPenalty 10 = 250 := by decide

/-- Faster links wrap around: just above 54 Mbit/s the penalty is the largest, 65 Mbit/s is worse than 12 Mbit/s, and a link of 108 Mbit/s is
better than one of 53. -/
theorem C156_bandwidth_negation : bandwidthPenalty 541 = 255 ∧ bandwidthPenalty 650 > bandwidthPenalty 120 ∧
    bandwidthPenalty 1080 < bandwidthPenalty 530 ∧ bandwidthPenalty 1083 = 255 := by decide

/-- The penalty of a signal in dBm. -/
theorem C156_signal (g : Int) :
    (-75 < g → signalPenalty g = 0) ∧ (-80 < g → g ≤ -75 → signalPenalty g = 30) ∧ (-85 < g → g ≤ -80 → signalPenalty g = 60) ∧
    (-90 < g → g ≤ -85 → signalPenalty g = 120) ∧ (-95 < g → g ≤ -90 → signalPenalty g = 160) ∧
    (-100 < g → g ≤ -95 → signalPenalty g = 200) ∧ (g ≤ -100 → signalPenalty g = 255) := by
  unfold signalPenalty table lookup lookup lookup lookup lookup lookup lookup
  refine ⟨?_, ?_, ?_, ?_, ?_, ?_, ?_⟩ <;> intros <;> (repeat' split) <;> omega

/-- A stronger signal has no larger penalty. -/
theorem C156_signal_mono (g g' : Int) (h : g ≤ g') : signalPenalty g' ≤ signalPenalty g ∧ signalPenalty g ≤ 255 := by
  unfold signalPenalty table lookup lookup lookup lookup lookup lookup lookup
  constructor
  · (repeat' split) <;> omega
  · (repeat' split) <;> omega

example : signalPenalty (-82) = 60 ∧ signalPenalty (-101) = 255 := by decide

private theorem bump_le (v : Nat) (h : v ≤ 255) : bump v ≤ 255 := by
  unfold bump
  split <;> omega

private theorem bump_ge (v : Nat) (h : 25 ≤ v) : 26 ≤ bump v := by
  unfold bump
  split <;> omega

private theorem bump_mono (v v' : Nat) (h : v ≤ v') : bump v ≤ bump v' := by
  unfold bump
  split <;> split <;> omega

/-- The cost without the cases that cannot happen. -/
private theorem cost_eq (l : Lq) (h1 : 25 ≤ l.lq) (h2 : l.lq ≤ 255) (h3 : 25 ≤ l.nlq) (h4 : l.nlq ≤ 255) (h5 : l.bw ≤ 255) (h6 : l.rssi ≤ 255) :
    1024 ≤ 65025 * 1024 / (bump l.lq * bump l.nlq) ∧ 65025 * 1024 / (bump l.lq * bump l.nlq) ≤ 98500 ∧
    cost l = if l.lq = 255 ∧ l.nlq = 255 then (65025 * 1024 / (bump l.lq * bump l.nlq) + (l.bw + l.rssi) * 1024 / 255) / 10
      else 65025 * 1024 / (bump l.lq * bump l.nlq) + (l.bw + l.rssi) * 1024 / 255 := by
  have a1 := bump_le _ h2
  have a2 := bump_le _ h4
  have a3 := bump_ge _ h1
  have a4 := bump_ge _ h3
  have m1 : bump l.lq * bump l.nlq ≤ 255 * 255 := Nat.mul_le_mul a1 a2
  have m2 : 26 * 26 ≤ bump l.lq * bump l.nlq := Nat.mul_le_mul a3 a4
  have d1 : 1024 ≤ 65025 * 1024 / (bump l.lq * bump l.nlq) := by
    rw [Nat.le_div_iff_mul_le (by omega)]
    omega
  have d2 : 65025 * 1024 / (bump l.lq * bump l.nlq) ≤ 65025 * 1024 / (26 * 26) := Nat.div_le_div_left m2 (by decide)
  have d3 : 65025 * 1024 / (26 * 26) = 98499 := by decide
  rw [d3] at d2
  refine ⟨d1, by omega, ?_⟩
  unfold cost
  rw [if_neg (by omega)]
  simp only []
  obtain ⟨x, hx⟩ : ∃ x, x = 65025 * 1024 / (bump l.lq * bump l.nlq) := ⟨_, rfl⟩
  rw [← hx] at d1 d2 ⊢
  by_cases c : l.lq = 255 ∧ l.nlq = 255
  · rw [if_pos c, if_neg (by omega), if_neg (by omega)]
  · rw [if_neg c, if_neg (by omega), if_neg (by omega)]

/-- A link is broken exactly if one direction has less than a tenth; otherwise its cost is at least 102 and far from that of a broken one. -/
theorem C156_broken (l : Lq) (h2 : l.lq ≤ 255) (h4 : l.nlq ≤ 255) (h5 : l.bw ≤ 255) (h6 : l.rssi ≤ 255) :
    (cost l = 4194304 ↔ l.lq < 25 ∨ l.nlq < 25) ∧ (cost l ≠ 4194304 → 102 ≤ cost l ∧ cost l ≤ 101000) := by
  by_cases c : l.lq < 25 ∨ l.nlq < 25
  · have e : cost l = 4194304 := by unfold cost; rw [if_pos c]
    exact ⟨⟨fun _ => c, fun _ => e⟩, fun q => absurd e q⟩
  · obtain ⟨d1, d2, e⟩ := cost_eq l (by omega) h2 (by omega) h4 h5 h6
    have b : 102 ≤ cost l ∧ cost l ≤ 101000 := by
      rw [e]
      split <;> omega
    exact ⟨⟨fun q => by omega, fun q => absurd q c⟩, fun _ => b⟩

example : cost ⟨255, 255, 0, 0⟩ = 102 ∧ cost ⟨254, 254, 0, 0⟩ = 1024 ∧ cost ⟨24, 255, 0, 0⟩ = 4194304 ∧ cost ⟨25, 25, 255, 255⟩ = 100547 := by
  decide

/-- A link that is no worse in each of the four values costs no more. -/
theorem C156_cost_mono (l l' : Lq) (h2 : l'.lq ≤ 255) (h4 : l'.nlq ≤ 255) (h5 : l.bw ≤ 255) (h6 : l.rssi ≤ 255)
    (g1 : l.lq ≤ l'.lq) (g2 : l.nlq ≤ l'.nlq) (g3 : l'.bw ≤ l.bw) (g4 : l'.rssi ≤ l.rssi) : cost l' ≤ cost l := by
  by_cases c : l.lq < 25 ∨ l.nlq < 25
  · have e : cost l = 4194304 := by unfold cost; rw [if_pos c]
    have := C156_broken l' h2 h4 (by omega) (by omega)
    by_cases q : cost l' = 4194304
    · omega
    · have := this.2 q
      omega
  · obtain ⟨d1, d2, e⟩ := cost_eq l (by omega) (by omega) (by omega) (by omega) h5 h6
    obtain ⟨d1', d2', e'⟩ := cost_eq l' (by omega) h2 (by omega) h4 (by omega) (by omega)
    have m : bump l.lq * bump l.nlq ≤ bump l'.lq * bump l'.nlq := Nat.mul_le_mul (bump_mono _ _ g1) (bump_mono _ _ g2)
    have p : 0 < bump l.lq * bump l.nlq := Nat.mul_pos (by have := bump_ge l.lq (by omega); omega) (by have := bump_ge l.nlq (by omega); omega)
    have d : 65025 * 1024 / (bump l'.lq * bump l'.nlq) ≤ 65025 * 1024 / (bump l.lq * bump l.nlq) := Nat.div_le_div_left m p
    have f : (l'.bw + l'.rssi) * 1024 / 255 ≤ (l.bw + l.rssi) * 1024 / 255 := Nat.div_le_div_right (Nat.mul_le_mul_right _ (by omega))
    rw [e, e']
    by_cases q : l.lq = 255 ∧ l.nlq = 255
    · rw [if_pos q, if_pos (by omega)]
      exact Nat.div_le_div_right (by omega)
    · rw [if_neg q]
      split
      · exact Nat.le_trans (Nat.div_le_self _ _) (by omega)
      · omega

/-- The cost of a link that is not perfect is 1 divided by the product of the two qualities, plus the penalties, in steps of 1/1024 and
rounded downwards. -/
theorem C156_cost_value (l : Lq) (h1 : 25 ≤ l.lq) (h2 : l.lq < 255) (h3 : 25 ≤ l.nlq) (h4 : l.nlq < 255) (h5 : l.bw ≤ 255) (h6 : l.rssi ≤ 255) :
    ∃ e p, cost l = e + p ∧ e * ((l.lq + 1) * (l.nlq + 1)) ≤ 1024 * (255 * 255) ∧ 1024 * (255 * 255) < (e + 1) * ((l.lq + 1) * (l.nlq + 1)) ∧
      255 * p ≤ 1024 * (l.bw + l.rssi) ∧ 1024 * (l.bw + l.rssi) < 255 * (p + 1) := by
  obtain ⟨_, _, e⟩ := cost_eq l h1 (by omega) h3 (by omega) h5 h6
  rw [if_neg (by omega)] at e
  have b1 : bump l.lq = l.lq + 1 := by unfold bump; rw [if_pos (by omega)]
  have b2 : bump l.nlq = l.nlq + 1 := by unfold bump; rw [if_pos (by omega)]
  rw [b1, b2] at e
  have p : 0 < (l.lq + 1) * (l.nlq + 1) := Nat.mul_pos (by omega) (by omega)
  refine ⟨_, _, e, ?_, ?_, by omega, by omega⟩
  · exact Nat.div_mul_le_self _ _
  · have := Nat.lt_mul_div_succ (65025 * 1024) p
    rw [Nat.mul_comm ((l.lq + 1) * (l.nlq + 1))] at this
    omega

/-- With one perfect direction only the other quality counts. -/
theorem C156_cost_one (q b r : Nat) (h1 : 25 ≤ q) (h2 : q < 255) (h5 : b ≤ 255) (h6 : r ≤ 255) :
    cost ⟨255, q, b, r⟩ = cost ⟨q, 255, b, r⟩ ∧
    ∃ e p, cost ⟨q, 255, b, r⟩ = e + p ∧ e * (q + 1) ≤ 1024 * 255 ∧ 1024 * 255 < (e + 1) * (q + 1) ∧
      255 * p ≤ 1024 * (b + r) ∧ 1024 * (b + r) < 255 * (p + 1) := by
  obtain ⟨_, _, e1⟩ := cost_eq ⟨255, q, b, r⟩ (by simp only []; omega) (by simp only []; omega) h1 (by show q ≤ 255; omega) h5 h6
  obtain ⟨_, _, e2⟩ := cost_eq ⟨q, 255, b, r⟩ h1 (by show q ≤ 255; omega) (by simp only []; omega) (by simp only []; omega) h5 h6
  have bq : bump q = q + 1 := by unfold bump; rw [if_pos (by omega)]
  have bb : bump 255 = 255 := rfl
  rw [if_neg (by simp only []; omega)] at e1 e2
  simp only [] at e1 e2
  rw [bq, bb] at e1 e2
  rw [Nat.mul_comm 255 (q + 1)] at e1
  refine ⟨by rw [e1, e2], _, _, e2, ?_, ?_, by omega, by omega⟩
  · have := Nat.div_mul_le_self (65025 * 1024) ((q + 1) * 255)
    rw [← Nat.mul_assoc] at this
    omega
  · have := Nat.lt_mul_div_succ (65025 * 1024) (b := (q + 1) * 255) (by omega)
    rw [Nat.mul_comm ((q + 1) * 255), ← Nat.mul_assoc] at this
    omega

/-- A perfect link costs a tenth: of 1024 and the penalties. -/
theorem C156_cost_ether (b r : Nat) (h5 : b ≤ 255) (h6 : r ≤ 255) :
    2550 * cost ⟨255, 255, b, r⟩ ≤ 255 * 1024 + 1024 * (b + r) ∧ 255 * 1024 + 1024 * (b + r) < 2550 * (cost ⟨255, 255, b, r⟩ + 1) := by
  obtain ⟨_, _, e⟩ := cost_eq ⟨255, 255, b, r⟩ (by simp only []; omega) (by simp only []; omega) (by simp only []; omega) (by simp only []; omega) h5 h6
  rw [if_pos ⟨rfl, rfl⟩] at e
  have bb : bump 255 = 255 := rfl
  simp only [] at e
  rw [bb] at e
  have : 65025 * 1024 / (255 * 255) = 1024 := by decide
  rw [this] at e
  rw [e]
  omega

example : cost ⟨255, 255, 255, 0⟩ = 204 ∧ cost ⟨255, 127, 0, 0⟩ = 2040 := by decide

example : cost ⟨127, 254, 100, 30⟩ = 2562 := by decide

/-- The penalties of a link are those of its station, and none if there is no data; the other values stay. -/
theorem C156_apply (l : Lq) (g b : Nat) (hg : g < 256) (h : b ≠ 0 ∨ g ≠ 0) :
    apply l none = ⟨l.lq, l.nlq, 0, 0⟩ ∧
    ∃ d, station ⟨some g, some b⟩ = some (some d) ∧ d.2 = b ∧ -128 ≤ d.1 ∧ d.1 ≤ 127 ∧ d.1 % 256 = g ∧
      apply l (some d) = ⟨l.lq, l.nlq, bandwidthPenalty b, signalPenalty d.1⟩ := by
  refine ⟨rfl, (if g < 128 then (g : Int) else (g : Int) - 256, b), ?_, rfl, ?_, ?_, ?_, rfl⟩
  · unfold station
    simp only []
    rw [if_pos h]
  · simp only []; split <;> omega
  · simp only []; split <;> omega
  · simp only []; split <;> omega

example : station ⟨some 176, some 540⟩ = some (some (-80, 540)) := by decide

/-- A station with neither a signal nor a rate is left out. -/
theorem C156_station_zero : station ⟨some 0, some 0⟩ = some none := by decide

/-- A station that does not tell its signal or its rate: undefined. -/
theorem C156_station_undefined (b : Nat) : station ⟨none, some b⟩ = none ∧ station ⟨some b, none⟩ = none := ⟨rfl, rfl⟩

private theorem find_none (m : Nat) (st : List (Nat × Int × Nat)) (h : ∀ d, (m, d) ∉ st) : find m st = none := by
  induction st with
  | nil => rfl
  | cons a t ih =>
    obtain ⟨k, d⟩ := a
    unfold find
    rw [if_neg (fun q => h d (by rw [q]; exact List.mem_cons_self))]
    exact ih (fun d' q => h d' (List.mem_cons_of_mem _ q))

private theorem find_some (m : Nat) (d : Int × Nat) (a b : List (Nat × Int × Nat)) (h : ∀ d, (m, d) ∉ a) : find m (a ++ (m, d) :: b) = some d := by
  induction a with
  | nil => exact if_pos rfl
  | cons x t ih =>
    obtain ⟨k, e⟩ := x
    show find m ((k, e) :: (t ++ (m, d) :: b)) = some d
    unfold find
    rw [if_neg (fun q => h e (by rw [q]; exact List.mem_cons_self))]
    exact ih (fun d' q => h d' (List.mem_cons_of_mem _ q))

/-- If there is a station at all, each link has the penalties of the first station with the address of its neighbour, and none if there is
no such station or the address is not known; the links and the other values stay. -/
theorem C156_get_partial (links : List (Option Nat × Lq)) (st : List (Nat × Int × Nat)) (h : st ≠ []) (i : Nat) (a : Option Nat) (l : Lq)
    (hi : links[i]? = some (a, l)) :
    (get links st).length = links.length ∧
    (∀ m g b s t, a = some m → st = s ++ (m, g, b) :: t → (∀ d, (m, d) ∉ s) →
      (get links st)[i]? = some (a, ⟨l.lq, l.nlq, bandwidthPenalty b, signalPenalty g⟩)) ∧
    ((∀ m d, a = some m → (m, d) ∉ st) → (get links st)[i]? = some (a, ⟨l.lq, l.nlq, 0, 0⟩)) := by
  unfold get
  rw [if_neg h]
  refine ⟨List.length_map _, ?_, ?_⟩
  · intro m g b s t q1 q2 q3
    rw [List.getElem?_map, hi, q1, q2]
    simp only [Option.map_some]
    rw [find_some m (g, b) s t q3]
    rfl
  · intro q
    rw [List.getElem?_map, hi]
    cases a with
    | none => rfl
    | some m =>
      simp only [Option.map_some]
      rw [find_none m st (fun d => q m d rfl)]
      rfl

example : get [(some 7, ⟨200, 200, 9, 9⟩), (none, ⟨100, 100, 9, 9⟩), (some 8, ⟨50, 50, 9, 9⟩)] [(5, -90, 10), (7, -82, 270), (7, -60, 540)] =
    [(some 7, ⟨200, 200, 127, 60⟩), (none, ⟨100, 100, 0, 0⟩), (some 8, ⟨50, 50, 0, 0⟩)] := by decide

/-- Without any station, as after the last one has left, the old penalties stay. -/
theorem C156_get_negation : ¬ ∀ (links : List (Option Nat × Lq)) (st : List (Nat × Int × Nat)) (m : Nat) (l : Lq), links = [(some m, l)] →
    (∀ d, (m, d) ∉ st) → get links st = [(some m, ⟨l.lq, l.nlq, 0, 0⟩)] := by
  intro h
  exact absurd (h [(some 7, ⟨200, 200, 127, 60⟩)] [] 7 _ rfl (fun _ => List.not_mem_nil)) (by decide)

/-- The values are read as they were written, and what follows is left. -/
theorem C156_roundtrip (l : Lq) (r : List Nat) : deserialize (serialize l ++ r) = some (l, r) ∧ (serialize l).length = 4 := ⟨rfl, rfl⟩

/-- In a message the penalties come first, then the quality and that of the neighbour. -/
theorem C156_wire (l : Lq) : (serialize l)[0]? = some l.bw ∧ (serialize l)[1]? = some l.rssi ∧ (serialize l)[2]? = some l.lq ∧
    (serialize l)[3]? = some l.nlq := ⟨rfl, rfl, rfl, rfl⟩

example : deserialize [1, 2, 3, 4, 5] = some (⟨3, 4, 1, 2⟩, [5]) := by decide

end Verif.Wifi
