import Verif.GwCostModel

/-
Cost of a gateway (C33) and choice of a gateway (C34).
-/
namespace Verif.GwCost

/-! ### C33 -/

/-- The widths of the configuration and of the inputs. -/
structure Fits (c : Cfg) (path uk dk : Nat) : Prop where
  path : path < 4294967296
  uk : uk < 4294967296
  dk : dk < 4294967296
  wUp : c.wUp < 256
  wDown : c.wDown < 256
  wEtx : c.wEtx < 256

private theorem div_le_of_le (x : Nat) {a : Nat} (h : x ≤ a) (d : Nat) : x / d ≤ a :=
  Nat.le_trans (Nat.div_le_self x d) h

private theorem scaled_le (w : Nat) (h : w < 256) : scale (1000 * w) ≤ 2147483648000 := by
  unfold scale
  omega

private theorem scaled_path (c : Cfg) (p : Nat) : scale (weighted c p) ≤ 36028797018963968 := by
  unfold scale weighted
  have := Nat.mod_lt (p * c.wEtx) (by decide : 0 < 4294967296)
  generalize p * c.wEtx % 4294967296 = x at *
  omega

private theorem classic_le (p : Nat) (h : p < 4294967296) : classic p ≤ int64Max := by
  unfold classic int64Max
  omega

private theorem big : 36028797018963968 + 2147483648000 + 2147483648000 ≤ int64Max ∧
    4294967296 ≤ int64Max := by decide

/-- The 64-bit arithmetic never overflows, so there is always a result, and it
fits. -/
theorem C33_no_int64_overflow (c : Cfg) (up : Bool) (path uk dk : Nat) (h : Fits c path uk dk) :
    ∃ r, weigh c up path uk dk = some r ∧ r ≤ int64Max := by
  have h1 := h.path
  have a1 := scaled_le c.wUp h.wUp
  have a2 := scaled_le c.wDown h.wDown
  have a3 := scaled_path c path
  have b1 : costU c uk ≤ _ := div_le_of_le _ a1 uk
  have b2 : costD c dk ≤ _ := div_le_of_le _ a2 dk
  have b3 : costE c path ≤ _ := div_le_of_le _ a3 c.divider
  have hm := big
  unfold weigh
  split
  · exact ⟨_, rfl, Nat.le_refl _⟩
  · split
    · rw [if_pos (classic_le path h1)]
      exact ⟨_, rfl, classic_le path h1⟩
    · split
      · exact ⟨_, rfl, Nat.le_refl _⟩
      · split
        · exact ⟨_, rfl, by omega⟩
        · rw [if_pos ⟨by omega, by omega, by omega, by omega⟩]
          exact ⟨_, rfl, by omega⟩

private theorem costU_mono (c : Cfg) {uk uk' : Nat} (h : uk' ≤ uk) (h0 : 0 < uk') : costU c uk ≤ costU c uk' :=
  Nat.div_le_div_left h h0

private theorem costD_mono (c : Cfg) {dk dk' : Nat} (h : dk' ≤ dk) (h0 : 0 < dk') : costD c dk ≤ costD c dk' :=
  Nat.div_le_div_left h h0

private theorem weighted_eq (c : Cfg) (p : Nat) (h : p * c.wEtx < 4294967296) : weighted c p = p * c.wEtx :=
  Nat.mod_eq_of_lt h

private theorem costE_mono (c : Cfg) {p q : Nat} (h : p ≤ q) (hw : q * c.wEtx < 4294967296) :
    costE c p ≤ costE c q := by
  have hpw : p * c.wEtx ≤ q * c.wEtx := Nat.mul_le_mul_right _ h
  unfold costE
  rw [weighted_eq c q hw, weighted_eq c p (Nat.lt_of_le_of_lt hpw hw)]
  exact Nat.div_le_div_right (Nat.mul_le_mul_right _ hpw)

private theorem path_le_costE (c : Cfg) (q : Nat) (hw : q * c.wEtx < 4294967296) (h0 : 0 < c.divider)
    (hd : c.divider ≤ scale c.wEtx) : q ≤ costE c q := by
  unfold costE
  rw [weighted_eq c q hw, Nat.le_div_iff_mul_le h0]
  unfold scale
  rw [Nat.mul_assoc]
  exact Nat.mul_le_mul_left _ hd

private theorem classic_mono {p q : Nat} (h : p ≤ q) : classic p ≤ classic q := Nat.mul_le_mul_right _ h

private theorem mono (c : Cfg) (up : Bool) (p q uk dk uk' dk' : Nat)
    (h : Fits c p uk dk) (hpq : p ≤ q) (hu : uk' ≤ uk) (hd : dk' ≤ dk)
    (hw : q * c.wEtx < 4294967296)
    (hs : ¬ (maxSpeed ≤ uk ∧ maxSpeed ≤ dk) ∨ c.divider ≤ scale c.wEtx) (r r' : Nat)
    (hr : weigh c up p uk dk = some r) (hr' : weigh c up q uk' dk' = some r') : r ≤ r' := by
  have hle : r ≤ int64Max := by
    obtain ⟨_, e1, hle⟩ := C33_no_int64_overflow c up p uk dk h
    rw [hr] at e1
    injection e1 with e1
    rw [e1]
    exact hle
  unfold weigh at hr hr'
  by_cases hup : up = false
  · rw [if_pos hup] at hr hr'
    injection hr with hr; injection hr' with hr'
    rw [← hr, ← hr']
    exact Nat.le_refl _
  rw [if_neg hup] at hr hr'
  by_cases hc : c.divider = 0
  · rw [if_pos hc] at hr hr'
    have := classic_mono hpq
    split at hr
    · split at hr'
      · injection hr with hr; injection hr' with hr'
        omega
      · cases hr'
    · cases hr
  rw [if_neg hc] at hr hr'
  by_cases hz' : uk' = 0 ∨ dk' = 0
  · rw [if_pos hz'] at hr'
    injection hr' with hr'
    rw [← hr']
    exact hle
  rw [if_neg hz'] at hr'
  rw [if_neg (show ¬ (uk = 0 ∨ dk = 0) by omega)] at hr
  have hcpos : 0 < c.divider := by omega
  by_cases hs' : maxSpeed ≤ uk' ∧ maxSpeed ≤ dk' ∧ q < c.maxEtx
  · rw [if_pos hs'] at hr'
    rw [if_pos ⟨by omega, by omega, by omega⟩] at hr
    injection hr with hr; injection hr' with hr'
    omega
  rw [if_neg hs'] at hr'
  have hE' := costE_mono c hpq hw
  have hU := costU_mono c hu (by omega)
  have hD := costD_mono c hd (by omega)
  split at hr'
  · injection hr' with hr'
    by_cases hs2 : maxSpeed ≤ uk ∧ maxSpeed ≤ dk ∧ p < c.maxEtx
    · rw [if_pos hs2] at hr
      injection hr with hr
      rcases hs with hs | hs
      · exact absurd ⟨hs2.1, hs2.2.1⟩ hs
      · have hE := path_le_costE c q hw hcpos hs
        omega
    · rw [if_neg hs2] at hr
      split at hr
      · injection hr with hr
        omega
      · cases hr
  · cases hr'

/-- A gateway with at most the path cost and at least the bandwidth never gets
a higher cost, provided the weighted path cost fits in 32 bits and the weight of
a unit of path cost is at least one unit of cost (or only path costs count).
Missing from C33: the other configurations, for which it is false, see
`C33_weighted_path_cost_wraps` and `C33_best_bandwidth_dearer`. -/
theorem C33_monotone_partial (c : Cfg) (up : Bool) (p q uk dk uk' dk' : Nat)
    (h : Fits c p uk dk) (hpq : p ≤ q) (hu : uk' ≤ uk) (hd : dk' ≤ dk)
    (hw : q * c.wEtx < 4294967296) (hdiv : c.divider ≤ c.wEtx * 8388608) (r r' : Nat)
    (hr : weigh c up p uk dk = some r) (hr' : weigh c up q uk' dk' = some r') : r ≤ r' :=
  mono c up p q uk dk uk' dk' h hpq hu hd hw (Or.inr hdiv) r r' hr hr'

/-- For a gateway below the maximum bandwidth the divider does not matter. -/
theorem C33_monotone_ordinary (c : Cfg) (up : Bool) (p q uk dk uk' dk' : Nat)
    (h : Fits c p uk dk) (hpq : p ≤ q) (hu : uk' ≤ uk) (hd : dk' ≤ dk)
    (hw : q * c.wEtx < 4294967296) (hs : ¬ (320000000 ≤ uk ∧ 320000000 ≤ dk)) (r r' : Nat)
    (hr : weigh c up p uk dk = some r) (hr' : weigh c up q uk' dk' = some r') : r ≤ r' :=
  mono c up p q uk dk uk' dk' h hpq hu hd hw (Or.inl hs) r r' hr hr'

/-- The product of path cost and weight is computed in 32 bits: with weight 255
a path cost of 16843010 is worth less than one of 1000. -/
theorem C33_weighted_path_cost_wraps :
    ∃ c r r', Fits c 1000 1000 1000 ∧ Fits c 16843010 1000 1000 ∧
      weigh c true 1000 1000 1000 = some r ∧ weigh c true 16843010 1000 1000 = some r' ∧ r' < r :=
  ⟨⟨1, 2560, 1, 1, 255⟩, _, _, ⟨by decide, by decide, by decide, by decide, by decide, by decide⟩,
    ⟨by decide, by decide, by decide, by decide, by decide, by decide⟩, rfl, rfl, by decide⟩

/-- A gateway of full bandwidth is given its path cost unscaled: with a path
cost weight of zero it loses against a gateway with less bandwidth and a higher
path cost. -/
theorem C33_best_bandwidth_dearer :
    ∃ c r r', Fits c 2000 320000000 320000000 ∧ Fits c 3000 319999999 319999999 ∧
      weigh c true 2000 320000000 320000000 = some r ∧
      weigh c true 3000 319999999 319999999 = some r' ∧ r' < r :=
  ⟨⟨5, 2560, 1, 1, 0⟩, _, _, ⟨by decide, by decide, by decide, by decide, by decide, by decide⟩,
    ⟨by decide, by decide, by decide, by decide, by decide, by decide⟩, rfl, rfl, by decide⟩

/-- A gateway that is down or without bandwidth has the highest cost. -/
theorem C33_unusable_infinite (c : Cfg) (up : Bool) (path uk dk : Nat)
    (h : up = false ∨ (c.divider ≠ 0 ∧ (uk = 0 ∨ dk = 0))) : weigh c up path uk dk = some int64Max := by
  unfold weigh
  rcases h with h | ⟨h1, h2⟩
  · rw [if_pos h]
  · rw [if_neg h1, if_pos h2]
    split <;> rfl

example : weigh ⟨4, 2560, 1, 2, 3⟩ true 1024 2000 8000 = some 6448742400 := by decide
example : weigh ⟨4, 2560, 1, 2, 3⟩ true 2048 1000 8000 = some 12895387648 := by decide
example : weigh ⟨0, 2560, 1, 1, 1⟩ true 1024 0 0 = some 2199023255552 := by decide

/-! ### C34 -/

/-- A gateway that may be chosen at all. -/
def Eligible (g : Gw) : Prop := g.selectable = true ∧ g.cost < int64Max

private theorem consider_cases (t : Option Nat) (ch : Option Gw) (g : Gw) :
    (consider t ch g = ch ∧ ¬ (Eligible g ∧ g.cost < bestCost ch ∧ passes t g = true)) ∨
    (consider t ch g = some g ∧ Eligible g ∧ g.cost < bestCost ch ∧ passes t g = true) ∨
    (int64Max < g.cost) := by
  unfold consider Eligible
  by_cases h : g.cost = int64Max
  · left
    rw [if_pos h]
    exact ⟨rfl, fun h' => by omega⟩
  · rw [if_neg h]
    by_cases h2 : int64Max < g.cost
    · exact Or.inr (Or.inr h2)
    · split
      · rename_i h3
        exact Or.inr (Or.inl ⟨rfl, ⟨h3.1, by omega⟩, h3.2⟩)
      · rename_i h3
        exact Or.inl ⟨rfl, fun h4 => h3 ⟨h4.1.1, h4.2⟩⟩

private theorem fold_choose (t : Option Nat) (l : List Gw) (hb : ∀ g ∈ l, g.cost ≤ int64Max) :
    ∀ ch : Option Gw, (∀ g, ch = some g → g.cost < int64Max) →
    (∀ g, l.foldl (consider t) ch = some g →
      (ch = some g ∨ (g ∈ l ∧ Eligible g ∧ passes t g = true)) ∧ g.cost ≤ bestCost ch ∧
      ∀ h ∈ l, Eligible h → passes t h = true → g.cost ≤ h.cost) ∧
    (l.foldl (consider t) ch = none → ch = none ∧ ∀ h ∈ l, ¬ (Eligible h ∧ passes t h = true)) := by
  induction l with
  | nil =>
    intro ch _
    simp only [List.foldl_nil, List.not_mem_nil, false_and, or_false, false_implies, implies_true, and_true]
    exact ⟨fun g h => ⟨h, by rw [h]; exact Nat.le_refl _⟩, fun h => h⟩
  | cons x l ih =>
    intro ch hch
    have hbl : ∀ g ∈ l, g.cost ≤ int64Max := fun g hg => hb g (List.mem_cons_of_mem _ hg)
    rw [List.foldl_cons]
    rcases consider_cases t ch x with ⟨e, hn⟩ | ⟨e, h1, h2, h3⟩ | h
    · rw [e]
      obtain ⟨i1, i2⟩ := ih hbl ch hch
      refine ⟨fun g hg => ?_, fun hg => ?_⟩
      · obtain ⟨j1, j2, j3⟩ := i1 g hg
        refine ⟨?_, j2, fun h hh he hp => ?_⟩
        · rcases j1 with j1 | ⟨j1, j4⟩
          · exact Or.inl j1
          · exact Or.inr ⟨List.mem_cons_of_mem _ j1, j4⟩
        · rcases List.mem_cons.1 hh with e' | hm
          · rw [e'] at he hp ⊢
            by_cases hx : x.cost < bestCost ch
            · exact absurd ⟨he, hx, hp⟩ hn
            · omega
          · exact j3 h hm he hp
      · obtain ⟨j1, j2⟩ := i2 hg
        refine ⟨j1, fun h hh he => ?_⟩
        rcases List.mem_cons.1 hh with e' | hm
        · rw [e'] at he
          apply hn
          rw [j1]
          exact ⟨he.1, he.1.2, he.2⟩
        · exact j2 h hm he
    · rw [e]
      obtain ⟨i1, i2⟩ := ih hbl (some x) (fun g hg => by injection hg with hg; rw [← hg]; exact h1.2)
      refine ⟨fun g hg => ?_, fun hg => ?_⟩
      · obtain ⟨j1, j2, j3⟩ := i1 g hg
        have j2' : g.cost ≤ x.cost := j2
        refine ⟨?_, by omega, fun h hh he hp => ?_⟩
        · rcases j1 with j1 | ⟨j1, j4⟩
          · injection j1 with j1
            rw [← j1]
            exact Or.inr ⟨List.mem_cons_self, h1, h3⟩
          · exact Or.inr ⟨List.mem_cons_of_mem _ j1, j4⟩
        · rcases List.mem_cons.1 hh with e' | hm
          · rw [e']
            exact j2'
          · exact j3 h hm he hp
      · cases (i2 hg).1
    · have := hb x List.mem_cons_self
      omega

/-- The candidate a choice has to return: eligible, within `Ok`, of least cost
among those. -/
def Cheapest (gws : List Gw) (Ok : Gw → Prop) (g : Gw) : Prop :=
  g ∈ gws ∧ Eligible g ∧ Ok g ∧ ∀ h ∈ gws, Eligible h → Ok h → g.cost ≤ h.cost

private theorem choose_spec (thresh : Nat) (cur : Option Gw) (gws : List Gw)
    (hb : ∀ g ∈ gws, g.cost ≤ int64Max) (t : Option Nat) (ht : threshold thresh cur = some t)
    (Ok : Gw → Prop) (hok : ∀ g, passes t g = true ↔ Ok g) :
    ∃ r, choose thresh cur gws = some r ∧
      (∀ g, r = some g → Cheapest gws Ok g) ∧ (r = none → ∀ g ∈ gws, ¬ (Eligible g ∧ Ok g)) := by
  obtain ⟨h1, h2⟩ := fold_choose t gws hb none (fun g h => by cases h)
  refine ⟨gws.foldl (consider t) none, by unfold choose; rw [ht], fun g hg => ?_, fun hg g hgm hh => ?_⟩
  · obtain ⟨j1, _, j3⟩ := h1 g hg
    rcases j1 with j1 | ⟨j1, j2, j4⟩
    · cases j1
    · exact ⟨j1, j2, (hok g).1 j4, fun h hh he ho => j3 h hh he ((hok h).2 ho)⟩
  · exact (h2 hg).2 g hgm ⟨hh.1, (hok g).2 hh.2⟩

/-- Without a current gateway, or with the hysteresis off, an eligible gateway
of least cost is chosen whenever there is one. -/
theorem C34_minimal (thresh : Nat) (cur : Option Gw) (gws : List Gw)
    (hb : ∀ g ∈ gws, g.cost ≤ int64Max) (h : thresh = 0 ∨ cur = none) :
    ∃ r, choose thresh cur gws = some r ∧
      (∀ g, r = some g → Cheapest gws (fun _ => True) g) ∧ (r = none → ∀ g ∈ gws, ¬ Eligible g) := by
  have ht : threshold thresh cur = some none := by
    unfold threshold
    rcases h with h | h
    · rw [if_pos h]
    · rw [h]
      split <;> rfl
  obtain ⟨r, h1, h2, h3⟩ := choose_spec thresh cur gws hb none ht (fun _ => True) (by simp [passes])
  exact ⟨r, h1, h2, fun hr g hg he => h3 hr g hg ⟨he, trivial⟩⟩

/-- With a current gateway of finite cost the choice only moves to a gateway
whose cost is below `thresh` percent of the current one's, to a cheapest of
those, and it moves whenever there is one.  Missing from C34: a current gateway
whose cost is so high that the percentage overflows, in particular an
unreachable one, see `C34_unreachable_current_overflows`; and a current gateway
that may no longer be used, see `C34_unusable_current_kept`. -/
theorem C34_hysteresis_partial (thresh : Nat) (cur : Gw) (gws : List Gw)
    (hb : ∀ g ∈ gws, g.cost ≤ int64Max) (ht : thresh ≠ 0) (hc : cur.cost * thresh + 50 ≤ int64Max) :
    ∃ r, choose thresh (some cur) gws = some r ∧
      (∀ g, r = some g → Cheapest gws (fun g => 100 * g.cost + 50 ≤ thresh * cur.cost) g ∧
        100 * g.cost < thresh * cur.cost) ∧
      (r = none → ∀ g ∈ gws, ¬ (Eligible g ∧ 100 * g.cost + 50 ≤ thresh * cur.cost)) := by
  have hth : threshold thresh (some cur) = some (some ((cur.cost * thresh + 50) / 100)) := by
    unfold threshold calcThreshold
    rw [if_neg ht]
    simp only [if_neg ht, if_pos hc]
  obtain ⟨r, h1, h2, h3⟩ := choose_spec thresh (some cur) gws hb _ hth
    (fun g => 100 * g.cost + 50 ≤ thresh * cur.cost) (by
      intro g
      simp only [passes, decide_eq_true_eq]
      rw [Nat.mul_comm thresh]
      omega)
  refine ⟨r, h1, fun g hg => ⟨h2 g hg, ?_⟩, h3⟩
  have := (h2 g hg).2.2.1
  simp only at this
  omega

/-- If the current gateway becomes unreachable its cost is `INT64_MAX`, and the
percentage of it is computed all the same: signed overflow. -/
theorem C34_unreachable_current_overflows (thresh : Nat) (ht : 2 ≤ thresh) (cur : Gw)
    (hc : cur.cost = int64Max) (gws : List Gw) : choose thresh (some cur) gws = none := by
  unfold choose threshold calcThreshold
  rw [if_neg (by omega)]
  simp only [if_neg (show ¬ thresh = 0 by omega)]
  rw [if_neg]
  rw [hc]
  have : int64Max * 2 ≤ int64Max * thresh := Nat.mul_le_mul_left _ ht
  unfold int64Max at *
  omega

/-- A current gateway that may no longer be used (it announces NAT, which is not
allowed) still sets the threshold: another gateway stays unused. -/
theorem C34_unusable_current_kept :
    ∃ cur other : Gw, cur.selectable = false ∧ Eligible other ∧
      choose 50 (some cur) [cur, other] = some none :=
  ⟨⟨1, 2048, false⟩, ⟨2, 1500, true⟩, rfl, ⟨rfl, by decide⟩, by decide⟩

example : choose 50 (some ⟨1, 4096, true⟩) [⟨1, 4096, true⟩, ⟨2, 2100, true⟩, ⟨3, 1024, false⟩, ⟨4, 1500, true⟩] =
    some (some ⟨4, 1500, true⟩) := by decide
example : choose 50 (some ⟨1, 4096, true⟩) [⟨1, 4096, true⟩, ⟨2, 2100, true⟩] = some none := by decide

end Verif.GwCost
