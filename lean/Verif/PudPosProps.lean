import Verif.PudPosModel
import Mathlib.Tactic.Linarith
import Mathlib.Tactic.Ring
/-
C123: positions, times and validity times survive the wire format of the pud plugin.
-/
namespace Verif.PudPos

/-! ### Specification -/

/-- What is known of a floating point operation in double precision: the result is
near the exact one, and it is the exact one if that is a double. -/
structure Rounds (rd : Rat → Rat) : Prop where
  near : ∀ x : Rat, |x| ≤ 2 ^ 100 → |rd x - x| ≤ |x| / 2 ^ 53 + 1 / 2 ^ 200
  exact : ∀ (n : Int) (k : Nat), |n| ≤ 2 ^ 53 → k ≤ 1000 → rd ((n : Rat) / 2 ^ k) = (n : Rat) / 2 ^ k

/-- The first validity time that needs the exponent `m`. -/
def bound (m : Nat) : Nat := 16 * 2 ^ m - 16

/-- Seconds since the Epoch of a broken-down time. -/
def secs (t : Tm) : Nat := 86400 * t.day + 3600 * t.hour + 60 * t.min + t.sec

/-! ### Helper lemmas -/

/-- Exact arithmetic is a rounding. -/
theorem rounds_id : Rounds (fun x => x) :=
  ⟨fun x _ => by
    have : (0 : Rat) ≤ |x| := abs_nonneg x
    rw [sub_self, abs_zero]
    have h1 : (0 : Rat) ≤ |x| / 2 ^ 53 := div_nonneg this (by norm_num)
    have h2 : (0 : Rat) ≤ 1 / 2 ^ 200 := by norm_num
    linarith, fun _ _ _ _ => rfl⟩

private theorem near1 {rd : Rat → Rat} (R : Rounds rd) (x B : Rat) (hB : 1 ≤ B) (hB' : B ≤ 2 ^ 100)
    (h1 : -B ≤ x) (h2 : x ≤ B) : x - B / 2 ^ 52 ≤ rd x ∧ rd x ≤ x + B / 2 ^ 52 := by
  have ha : |x| ≤ B := abs_le.2 ⟨h1, h2⟩
  have h := R.near x (le_trans ha hB')
  have hs : (1 : Rat) / 2 ^ 200 ≤ 1 / 2 ^ 53 := by norm_num
  have hb : |rd x - x| ≤ B / 2 ^ 52 := by
    have : |x| / 2 ^ 53 ≤ B / 2 ^ 53 := by
      apply div_le_div_of_nonneg_right ha
      norm_num
    have h3 : (1 : Rat) / 2 ^ 53 ≤ B / 2 ^ 53 := by
      apply div_le_div_of_nonneg_right hB
      norm_num
    have h4 : B / 2 ^ 52 = B / 2 ^ 53 + B / 2 ^ 53 := by ring
    linarith
  have := abs_le.1 hb
  constructor <;> linarith

private theorem lrint_near (x : Rat) : x - 1 / 2 ≤ (lrint x : Rat) ∧ (lrint x : Rat) ≤ x + 1 / 2 := by
  have h1 := Rat.floor_le x
  have h2 := Rat.lt_floor_add_one x
  push_cast at h2
  unfold lrint
  split
  · constructor <;> linarith
  · split
    · push_cast
      constructor <;> linarith
    · split
      · constructor <;> linarith
      · push_cast
        constructor <;> linarith

private theorem lrint_int (n : Int) : lrint (n : Rat) = n := by
  have h : (n : Rat).floor = n := Rat.floor_intCast n
  unfold lrint
  rw [h, sub_self, if_pos (by norm_num)]

private theorem field_of (bits : Nat) (i : Int) (h0 : 0 ≤ i) (h1 : i < 2 ^ bits) :
    ((field bits i : Nat) : Rat) = (i : Rat) ∧ field bits i < 2 ^ bits := by
  have hm : i % 2 ^ bits = i := Int.emod_eq_of_lt h0 h1
  unfold field
  rw [hm]
  obtain ⟨n, rfl⟩ := Int.eq_ofNat_of_zero_le h0
  refine ⟨rfl, ?_⟩
  have : (n : Int) < 2 ^ bits := h1
  exact_mod_cast this

private theorem field_lt (bits : Nat) (i : Int) : field bits i < 2 ^ bits := by
  unfold field
  have h1 : 0 ≤ i % 2 ^ bits := Int.emod_nonneg _ (by positivity)
  have h2 : i % 2 ^ bits < 2 ^ bits := Int.emod_lt_of_pos _ (by positivity)
  obtain ⟨n, hn⟩ := Int.eq_ofNat_of_zero_le h1
  rw [hn] at h2 ⊢
  have : (n : Int) < 2 ^ bits := h2
  exact_mod_cast this

private theorem field_self (bits : Nat) (n : Nat) (h : n < 2 ^ bits) : field bits (n : Int) = n := by
  unfold field
  rw [Int.emod_eq_of_lt (by omega) (by exact_mod_cast h)]
  rfl

/-- What the getter of an angle makes of a field is exact. -/
private theorem getLat_eq {rd : Rat → Rat} (R : Rounds rd) (n : Nat) (hn : n < 2 ^ 28) :
    getLat rd n = (((n : Rat) + 1 / 2) / 2 ^ 28 - 1 / 2) * 180 := by
  have hn' : (n : Int) < 2 ^ 28 := by exact_mod_cast hn
  have e1 : (n : Rat) + 1 / 2 = ((2 * n + 1 : Int) : Rat) / 2 ^ 1 := by push_cast; ring
  have e2 : ((n : Rat) + 1 / 2) / 2 ^ 28 = ((2 * n + 1 : Int) : Rat) / 2 ^ 29 := by push_cast; ring
  have e3 : ((n : Rat) + 1 / 2) / 2 ^ 28 - 1 / 2 = ((2 * n + 1 - 2 ^ 28 : Int) : Rat) / 2 ^ 29 := by
    push_cast; ring
  have e4 : (((n : Rat) + 1 / 2) / 2 ^ 28 - 1 / 2) * 180 =
      (((2 * n + 1 - 2 ^ 28) * 180 : Int) : Rat) / 2 ^ 29 := by
    push_cast; ring
  have b : ∀ z : Int, -2 ^ 53 ≤ z → z ≤ 2 ^ 53 → |z| ≤ 2 ^ 53 := fun z h1 h2 => abs_le.2 ⟨h1, h2⟩
  have r1 : rd ((n : Rat) + 1 / 2) = (n : Rat) + 1 / 2 := by
    rw [e1]; exact R.exact _ _ (b _ (by omega) (by omega)) (by omega)
  have r2 : rd (((n : Rat) + 1 / 2) / 2 ^ 28) = ((n : Rat) + 1 / 2) / 2 ^ 28 := by
    rw [e2]; exact R.exact _ _ (b _ (by omega) (by omega)) (by omega)
  have r3 : rd (((n : Rat) + 1 / 2) / 2 ^ 28 - 1 / 2) = ((n : Rat) + 1 / 2) / 2 ^ 28 - 1 / 2 := by
    rw [e3]; exact R.exact _ _ (b _ (by omega) (by omega)) (by omega)
  have r4 : rd ((((n : Rat) + 1 / 2) / 2 ^ 28 - 1 / 2) * 180) =
      (((n : Rat) + 1 / 2) / 2 ^ 28 - 1 / 2) * 180 := by
    rw [e4]; exact R.exact _ _ (b _ (by omega) (by omega)) (by omega)
  unfold getLat
  rw [r1, r2, r3, r4]

private theorem getLon_eq {rd : Rat → Rat} (R : Rounds rd) (n : Nat) (hn : n < 2 ^ 27) :
    getLon rd n = (((n : Rat) + 1 / 2) / 2 ^ 27 - 1 / 2) * 360 := by
  have hn' : (n : Int) < 2 ^ 27 := by exact_mod_cast hn
  have e1 : (n : Rat) + 1 / 2 = ((2 * n + 1 : Int) : Rat) / 2 ^ 1 := by push_cast; ring
  have e2 : ((n : Rat) + 1 / 2) / 2 ^ 27 = ((2 * n + 1 : Int) : Rat) / 2 ^ 28 := by push_cast; ring
  have e3 : ((n : Rat) + 1 / 2) / 2 ^ 27 - 1 / 2 = ((2 * n + 1 - 2 ^ 27 : Int) : Rat) / 2 ^ 28 := by
    push_cast; ring
  have e4 : (((n : Rat) + 1 / 2) / 2 ^ 27 - 1 / 2) * 360 =
      (((2 * n + 1 - 2 ^ 27) * 360 : Int) : Rat) / 2 ^ 28 := by
    push_cast; ring
  have b : ∀ z : Int, -2 ^ 53 ≤ z → z ≤ 2 ^ 53 → |z| ≤ 2 ^ 53 := fun z h1 h2 => abs_le.2 ⟨h1, h2⟩
  have r1 : rd ((n : Rat) + 1 / 2) = (n : Rat) + 1 / 2 := by
    rw [e1]; exact R.exact _ _ (b _ (by omega) (by omega)) (by omega)
  have r2 : rd (((n : Rat) + 1 / 2) / 2 ^ 27) = ((n : Rat) + 1 / 2) / 2 ^ 27 := by
    rw [e2]; exact R.exact _ _ (b _ (by omega) (by omega)) (by omega)
  have r3 : rd (((n : Rat) + 1 / 2) / 2 ^ 27 - 1 / 2) = ((n : Rat) + 1 / 2) / 2 ^ 27 - 1 / 2 := by
    rw [e3]; exact R.exact _ _ (b _ (by omega) (by omega)) (by omega)
  have r4 : rd ((((n : Rat) + 1 / 2) / 2 ^ 27 - 1 / 2) * 360) =
      (((n : Rat) + 1 / 2) / 2 ^ 27 - 1 / 2) * 360 := by
    rw [e4]; exact R.exact _ _ (b _ (by omega) (by omega)) (by omega)
  unfold getLon
  rw [r1, r2, r3, r4]

/-- The scaled angle before it is cut to an integer. -/
private theorem scaled {rd : Rat → Rat} (R : Rounds rd) (y : Rat) (h1 : -1 / 2 ≤ y) (h2 : y ≤ 1 / 2)
    (k : Nat) (hk : k = 27 ∨ k = 28) :
    (y + 1 / 2) * 2 ^ k - 1 / 2 ^ 21 ≤ rd (rd (rd y + 1 / 2) * 2 ^ k) ∧
    rd (rd (rd y + 1 / 2) * 2 ^ k) ≤ (y + 1 / 2) * 2 ^ k + 1 / 2 ^ 21 := by
  obtain ⟨a1, a2⟩ := near1 R y 1 (by norm_num) (by norm_num) (by linarith) (by linarith)
  obtain ⟨a, ha⟩ : ∃ a, a = rd y := ⟨_, rfl⟩
  rw [← ha] at a1 a2 ⊢
  norm_num at a1 a2
  obtain ⟨b1, b2⟩ := near1 R (a + 1 / 2) 2 (by norm_num) (by norm_num) (by linarith) (by linarith)
  obtain ⟨b, hb⟩ : ∃ b, b = rd (a + 1 / 2) := ⟨_, rfl⟩
  rw [← hb] at b1 b2 ⊢
  norm_num at b1 b2
  rcases hk with rfl | rfl
  · obtain ⟨c1, c2⟩ := near1 R (b * 2 ^ 27) (2 ^ 29) (by norm_num) (by norm_num) (by linarith) (by linarith)
    norm_num at c1 c2 ⊢
    constructor <;> linarith
  · obtain ⟨c1, c2⟩ := near1 R (b * 2 ^ 28) (2 ^ 29) (by norm_num) (by norm_num) (by linarith) (by linarith)
    norm_num at c1 c2 ⊢
    constructor <;> linarith

private theorem int_bounds (i lo hi : Int) (h1 : (lo : Rat) - 1 < i) (h2 : (i : Rat) < hi + 1) :
    lo ≤ i ∧ i ≤ hi := by
  constructor
  · have : ((lo - 1 : Int) : Rat) < (i : Rat) := by push_cast; exact h1
    have := Int.cast_lt.1 this
    omega
  · have : (i : Rat) < ((hi + 1 : Int) : Rat) := by push_cast; exact h2
    have := Int.cast_lt.1 this
    omega

/-! ### The property -/

/-- A latitude survives the message up to one unit of 180/2^28 degrees (7 cm). -/
theorem C123_latitude {rd : Rat → Rat} (R : Rounds rd) (x : Rat) (h1 : -90 ≤ x) (h2 : x ≤ 90) :
    ∃ n, setLat rd x = some n ∧ n < 2 ^ 28 ∧
      x - (1 / 2 + 1 / 2 ^ 20) * (180 / 2 ^ 28) ≤ getLat rd n ∧
      getLat rd n ≤ x + (1 + 1 / 2 ^ 20) * (180 / 2 ^ 28) := by
  obtain ⟨c1, c2⟩ := scaled R (x / 180) (by linarith) (by linarith) 28 (Or.inr rfl)
  unfold setLat
  rw [if_neg (by rintro (h | h) <;> linarith)]
  obtain ⟨c, hc⟩ : ∃ c, c = rd (rd (rd (x / 180) + 1 / 2) * 2 ^ 28) := ⟨_, rfl⟩
  rw [← hc] at c1 c2 ⊢
  obtain ⟨d, hd⟩ : ∃ d, d = clip (2 ^ 28 - 1) c := ⟨_, rfl⟩
  rw [← hd]
  norm_num at c1 c2
  have hd' : (d = c ∧ c ≤ 2 ^ 28 - 1) ∨ (d = 2 ^ 28 - 1 ∧ 2 ^ 28 - 1 < c) := by
    rw [hd]
    unfold clip
    by_cases hcl : (2 ^ 28 - 1 : Rat) < c
    · rw [if_pos hcl]; exact Or.inr ⟨rfl, hcl⟩
    · rw [if_neg hcl]; exact Or.inl ⟨rfl, not_lt.1 hcl⟩
  obtain ⟨l1, l2⟩ := lrint_near d
  obtain ⟨i, hi⟩ : ∃ i, i = lrint d := ⟨_, rfl⟩
  rw [← hi] at l1 l2 ⊢
  have hr : 0 ≤ i ∧ i ≤ 2 ^ 28 - 1 := by
    apply int_bounds
    · rcases hd' with ⟨rfl, _⟩ | ⟨rfl, _⟩ <;> norm_num at * <;> linarith
    · push_cast
      rcases hd' with ⟨rfl, _⟩ | ⟨rfl, _⟩ <;> norm_num at * <;> linarith
  obtain ⟨f1, f2⟩ := field_of 28 i hr.1 (by omega)
  refine ⟨_, rfl, f2, ?_⟩
  rw [getLat_eq R _ f2, f1]
  rcases hd' with ⟨rfl, h3⟩ | ⟨rfl, h3⟩
  · norm_num at *
    constructor <;> linarith
  · have hi' : i = 2 ^ 28 - 1 := by
      rw [hi]
      have : ((2 ^ 28 - 1 : Rat)) = ((2 ^ 28 - 1 : Int) : Rat) := by norm_num
      rw [this, lrint_int]
    rw [hi']
    push_cast
    norm_num at *
    constructor <;> linarith

example : setLat (fun x => x) (521 / 10) = some 211914879 ∧ setLat (fun x => x) 90 = some (2 ^ 28 - 1) := by
  decide +kernel

/-- Not up to half a unit, though the getter says it takes away half of the rounding
error: the setter rounds to the nearest unit already. -/
theorem C123_half_negation : ∃ x : Rat, -90 ≤ x ∧ x ≤ 90 ∧ ∀ rd, Rounds rd →
    ∃ n, setLat rd x = some n ∧ getLat rd n - x > 99 / 100 * (180 / 2 ^ 28) := by
  refine ⟨180 * ((513 : Int) : Rat) / 2 ^ 38, by norm_num, by norm_num, fun rd R => ?_⟩
  have b : ∀ z : Int, -2 ^ 53 ≤ z → z ≤ 2 ^ 53 → |z| ≤ 2 ^ 53 := fun z h1 h2 => abs_le.2 ⟨h1, h2⟩
  have e1 : (180 * ((513 : Int) : Rat) / 2 ^ 38) / 180 = ((513 : Int) : Rat) / 2 ^ 38 := by
    push_cast; norm_num
  have e2 : ((513 : Int) : Rat) / 2 ^ 38 + 1 / 2 = ((513 + 2 ^ 37 : Int) : Rat) / 2 ^ 38 := by
    push_cast; norm_num
  have e3 : ((513 + 2 ^ 37 : Int) : Rat) / 2 ^ 38 * 2 ^ 28 = ((513 + 2 ^ 37 : Int) : Rat) / 2 ^ 10 := by
    push_cast; norm_num
  have hs : setLat rd (180 * ((513 : Int) : Rat) / 2 ^ 38) = some (2 ^ 27 + 1) := by
    unfold setLat
    rw [if_neg (by push_cast; norm_num), e1, R.exact 513 38 (b _ (by omega) (by omega)) (by omega), e2,
      R.exact (513 + 2 ^ 37) 38 (b _ (by omega) (by omega)) (by omega), e3,
      R.exact (513 + 2 ^ 37) 10 (b _ (by omega) (by omega)) (by omega)]
    decide +kernel
  refine ⟨_, hs, ?_⟩
  rw [getLat_eq R _ (by norm_num)]
  push_cast
  norm_num

/-- A position that is read from one message and put into another moves by one unit
if its unit number is odd; only the northernmost unit stays where it is. -/
theorem C123_again {rd : Rat → Rat} (R : Rounds rd) (n : Nat) (hn : n < 2 ^ 28) :
    setLat rd (getLat rd n) = some (if n % 2 = 0 ∨ n = 2 ^ 28 - 1 then n else n + 1) := by
  have hn' : (n : Int) < 2 ^ 28 := by exact_mod_cast hn
  have hq : (n : Rat) ≤ 268435455 := by
    have : ((n : Int) : Rat) ≤ ((268435455 : Int) : Rat) := Int.cast_le.2 (by omega)
    push_cast at this
    exact this
  have hq0 : (0 : Rat) ≤ n := by positivity
  have b : ∀ z : Int, -2 ^ 53 ≤ z → z ≤ 2 ^ 53 → |z| ≤ 2 ^ 53 := fun z h1 h2 => abs_le.2 ⟨h1, h2⟩
  rw [getLat_eq R n hn]
  have e0 : (((n : Rat) + 1 / 2) / 2 ^ 28 - 1 / 2) * 180 / 180 =
      ((2 * n + 1 - 2 ^ 28 : Int) : Rat) / 2 ^ 29 := by
    push_cast; ring
  have e2 : ((2 * n + 1 - 2 ^ 28 : Int) : Rat) / 2 ^ 29 + 1 / 2 = ((2 * n + 1 : Int) : Rat) / 2 ^ 29 := by
    push_cast; ring
  have e3 : ((2 * n + 1 : Int) : Rat) / 2 ^ 29 * 2 ^ 28 = ((2 * n + 1 : Int) : Rat) / 2 ^ 1 := by
    push_cast; ring
  have e4 : ((2 * n + 1 : Int) : Rat) / 2 ^ 1 = (n : Rat) + 1 / 2 := by push_cast; ring
  unfold setLat
  rw [if_neg (by
      norm_num
      constructor <;> linarith), e0,
    R.exact _ 29 (b _ (by omega) (by omega)) (by omega), e2,
    R.exact _ 29 (b _ (by omega) (by omega)) (by omega), e3,
    R.exact _ 1 (b _ (by omega) (by omega)) (by omega), e4]
  congr 1
  by_cases hlast : n = 2 ^ 28 - 1
  · subst hlast
    rw [if_pos (Or.inr rfl)]
    decide +kernel
  · have hq2 : (n : Rat) ≤ 268435454 := by
      have : ((n : Int) : Rat) ≤ ((268435454 : Int) : Rat) := Int.cast_le.2 (by omega)
      push_cast at this
      exact this
    have hcl : clip (2 ^ 28 - 1) ((n : Rat) + 1 / 2) = (n : Rat) + 1 / 2 := by
      unfold clip
      rw [if_neg (by norm_num; linarith)]
    have hfl : ((n : Rat) + 1 / 2).floor = (n : Int) := by
      apply le_antisymm
      · have h1 := Rat.floor_le ((n : Rat) + 1 / 2)
        have : ((((n : Rat) + 1 / 2).floor : Int) : Rat) < (((n : Int) + 1 : Int) : Rat) := by
          push_cast; linarith
        have := Int.cast_lt.1 this
        omega
      · rw [Rat.le_floor_iff]
        push_cast
        linarith
    rw [hcl]
    unfold lrint
    rw [hfl]
    have hsub : (n : Rat) + 1 / 2 - ((n : Int) : Rat) = 1 / 2 := by push_cast; ring
    rw [hsub, if_neg (by norm_num), if_neg (by norm_num)]
    by_cases h2 : n % 2 = 0
    · rw [if_pos (by omega), if_pos (Or.inl h2), field_self 28 n hn]
    · rw [if_neg (by omega), if_neg (by omega)]
      have : ((n : Int) + 1) = ((n + 1 : Nat) : Int) := by push_cast; rfl
      rw [this, field_self 28 (n + 1) (by omega)]

example : setLat (fun x => x) (getLat (fun x => x) 211914879) = some 211914880 := by decide +kernel

/-- A longitude survives up to one unit of 360/2^27 degrees (30 cm at the equator),
where 180 degrees east is the same as 180 degrees west. -/
theorem C123_longitude {rd : Rat → Rat} (R : Rounds rd) (x : Rat) (h1 : -180 ≤ x) (h2 : x ≤ 180) :
    ∃ n turn, setLon rd x = some n ∧ n < 2 ^ 27 ∧ (turn = 0 ∨ turn = 360) ∧
      x - (1 / 2 + 1 / 2 ^ 20) * (360 / 2 ^ 27) ≤ getLon rd n + turn ∧
      getLon rd n + turn ≤ x + (1 + 1 / 2 ^ 20) * (360 / 2 ^ 27) := by
  obtain ⟨c1, c2⟩ := scaled R (x / 360) (by linarith) (by linarith) 27 (Or.inl rfl)
  unfold setLon
  rw [if_neg (by rintro (h | h) <;> linarith)]
  obtain ⟨c, hc⟩ : ∃ c, c = rd (rd (rd (x / 360) + 1 / 2) * 2 ^ 27) := ⟨_, rfl⟩
  rw [← hc] at c1 c2 ⊢
  norm_num at c1 c2
  have hcl : clip (2 ^ 28 - 1) c = c := by
    unfold clip
    rw [if_neg (by norm_num; linarith)]
  rw [hcl]
  obtain ⟨l1, l2⟩ := lrint_near c
  obtain ⟨i, hi⟩ : ∃ i, i = lrint c := ⟨_, rfl⟩
  rw [← hi] at l1 l2 ⊢
  have hr : 0 ≤ i ∧ i ≤ 2 ^ 27 := by
    apply int_bounds
    · push_cast; linarith
    · push_cast; norm_num; linarith
  by_cases hlast : i = 2 ^ 27
  · refine ⟨0, 360, by rw [hlast]; rfl, by norm_num, Or.inr rfl, ?_⟩
    rw [getLon_eq R 0 (by norm_num)]
    rw [hlast] at l1 l2
    push_cast at l1 l2
    norm_num at *
    constructor <;> linarith
  · obtain ⟨f1, f2⟩ := field_of 27 i hr.1 (by omega)
    refine ⟨_, 0, rfl, f2, Or.inl rfl, ?_⟩
    rw [getLon_eq R _ f2, f1]
    norm_num at *
    constructor <;> linarith

example : setLon (fun x => x) 180 = some 0 ∧ setLon (fun x => x) (13 / 2) = some 69532240 := by decide +kernel

/-- Angles out of range end the daemon. -/
theorem C123_angle_abort (rd : Rat → Rat) (x : Rat) :
    (setLat rd x = none ↔ x < -90 ∨ 90 < x) ∧ (setLon rd x = none ↔ x < -180 ∨ 180 < x) := by
  constructor
  · unfold setLat
    by_cases h : x < -90 ∨ 90 < x
    · rw [if_pos h]; exact ⟨fun _ => h, fun _ => rfl⟩
    · rw [if_neg h]; exact ⟨fun hx => (by cases hx), fun hx => absurd hx h⟩
  · unfold setLon
    by_cases h : x < -180 ∨ 180 < x
    · rw [if_pos h]; exact ⟨fun _ => h, fun _ => rfl⟩
    · rw [if_neg h]; exact ⟨fun hx => (by cases hx), fun hx => absurd hx h⟩

/-- An altitude survives up to half a metre, after it has been limited to the range
from -400 to 65135 metres. -/
theorem C123_altitude {rd : Rat → Rat} (R : Rounds rd) (x : Rat) :
    |((getAlt (setAlt rd x) : Int) : Rat) - max (-400) (min 65135 x)| ≤ 1 / 2 + 1 / 2 ^ 30 := by
  obtain ⟨y, hy⟩ : ∃ y, y = max (-400) (min 65135 x) := ⟨_, rfl⟩
  have hy' : (if 65135 < x then (65135 : Rat) else if x < -400 then -400 else x) = y := by
    rw [hy]
    by_cases ha : 65135 < x
    · rw [if_pos ha, min_eq_left (le_of_lt ha), max_eq_right (by norm_num)]
    · rw [if_neg ha, min_eq_right (not_lt.1 ha)]
      by_cases hb : x < -400
      · rw [if_pos hb, max_eq_left (le_of_lt hb)]
      · rw [if_neg hb, max_eq_right (not_lt.1 hb)]
  have hr : -400 ≤ y ∧ y ≤ 65135 := by
    rw [hy]
    exact ⟨le_max_left _ _, max_le (by norm_num) (min_le_left _ _)⟩
  rw [← hy]
  unfold setAlt
  rw [hy']
  obtain ⟨a1, a2⟩ := near1 R (y - -400) (2 ^ 17) (by norm_num) (by norm_num) (by norm_num; linarith) (by norm_num; linarith)
  obtain ⟨a, ha⟩ : ∃ a, a = rd (y - -400) := ⟨_, rfl⟩
  rw [← ha] at a1 a2 ⊢
  norm_num at a1 a2
  obtain ⟨l1, l2⟩ := lrint_near a
  obtain ⟨i, hi⟩ : ∃ i, i = lrint a := ⟨_, rfl⟩
  rw [← hi] at l1 l2 ⊢
  have hb : 0 ≤ i ∧ i ≤ 65535 := by
    apply int_bounds
    · push_cast; linarith
    · push_cast; linarith
  obtain ⟨f1, _⟩ := field_of 16 i hb.1 (by omega)
  unfold getAlt
  push_cast
  rw [f1]
  rw [abs_le]
  norm_num
  constructor <;> linarith

example : getAlt (setAlt (fun x => x) (8848 + 86 / 100)) = 8849 ∧ getAlt (setAlt (fun x => x) (-1000)) = -400 := by
  decide +kernel

/-- A speed survives up to half a kilometre per hour, after it has been limited to
the range from 0 to 4095. -/
theorem C123_speed (x : Rat) : |((setSpeed x : Nat) : Rat) - max 0 (min 4095 x)| ≤ 1 / 2 := by
  obtain ⟨y, hy⟩ : ∃ y, y = max 0 (min 4095 x) := ⟨_, rfl⟩
  have hy' : (if x < 0 then (0 : Rat) else if 4095 < x then 4095 else x) = y := by
    rw [hy]
    by_cases hb : x < 0
    · rw [if_pos hb, min_eq_right (by linarith), max_eq_left (le_of_lt hb)]
    · rw [if_neg hb]
      by_cases ha : 4095 < x
      · rw [if_pos ha, min_eq_left (le_of_lt ha), max_eq_right (by norm_num)]
      · rw [if_neg ha, min_eq_right (not_lt.1 ha), max_eq_right (not_lt.1 hb)]
  have hr : 0 ≤ y ∧ y ≤ 4095 := by
    rw [hy]
    exact ⟨le_max_left _ _, max_le (by norm_num) (min_le_left _ _)⟩
  rw [← hy]
  unfold setSpeed
  rw [hy']
  obtain ⟨l1, l2⟩ := lrint_near y
  obtain ⟨i, hi⟩ : ∃ i, i = lrint y := ⟨_, rfl⟩
  rw [← hi] at l1 l2 ⊢
  have hb : 0 ≤ i ∧ i ≤ 4095 := by
    apply int_bounds
    · push_cast; linarith
    · push_cast; linarith
  obtain ⟨f1, _⟩ := field_of 12 i hb.1 (by omega)
  rw [f1, abs_le]
  constructor <;> linarith

example : setSpeed (503 / 10) = 50 ∧ setSpeed 100000 = 4095 ∧ setSpeed (-3) = 0 := by decide +kernel

/-- A track angle between 0 and 511.5 survives up to half a degree; others do not:
-1 degree comes out as 511 and 512 as 0. -/
theorem C123_track_partial (x : Rat) (h1 : 0 ≤ x) (h2 : x < 511 + 1 / 2) :
    |((setTrack x : Nat) : Rat) - x| ≤ 1 / 2 := by
  unfold setTrack
  obtain ⟨l1, l2⟩ := lrint_near x
  obtain ⟨i, hi⟩ : ∃ i, i = lrint x := ⟨_, rfl⟩
  rw [← hi] at l1 l2 ⊢
  have hb : 0 ≤ i ∧ i ≤ 511 := by
    apply int_bounds
    · push_cast; linarith
    · push_cast; linarith
  obtain ⟨f1, _⟩ := field_of 9 i hb.1 (by omega)
  rw [f1, abs_le]
  constructor <;> linarith

example : setTrack (1234 / 10) = 123 := by decide +kernel

theorem C123_track_negation : setTrack (-1) = 511 ∧ setTrack 512 = 0 := by decide +kernel

/-- A dilution of precision that is not negative survives up to half a tenth, after
it has been limited to 204.7; a negative one does not. -/
theorem C123_hdop_partial {rd : Rat → Rat} (R : Rounds rd) (x : Rat) (h : 0 ≤ x) :
    |getHdop rd (setHdop rd x) - min (2047 / 10) x| ≤ 1 / 20 + 1 / 2 ^ 20 := by
  obtain ⟨r1, r2⟩ := near1 R (1 / 10) 1 (by norm_num) (by norm_num) (by norm_num) (by norm_num)
  obtain ⟨r, hr⟩ : ∃ r, r = hdopRes rd := ⟨_, rfl⟩
  have hr' : rd (1 / 10) = r := hr.symm
  rw [hr'] at r1 r2
  norm_num at r1 r2
  have rpos : 0 < r := by linarith
  obtain ⟨m1, m2⟩ := near1 R (2047 * r) (2 ^ 8) (by norm_num) (by norm_num) (by norm_num; linarith) (by norm_num; linarith)
  obtain ⟨M, hM⟩ : ∃ M, M = hdopMax rd := ⟨_, rfl⟩
  have hM' : rd (2047 * r) = M := by rw [hM, hr]; rfl
  rw [hM'] at m1 m2
  norm_num at m1 m2
  obtain ⟨y, hy⟩ : ∃ y, y = clip M x := ⟨_, rfl⟩
  have hyr : 0 ≤ y ∧ y ≤ 2047 / 10 + 1 / 2 ^ 30 ∧ |y - min (2047 / 10) x| ≤ 1 / 2 ^ 30 := by
    rw [hy]
    unfold clip
    by_cases hc : M < x
    · rw [if_pos hc]
      refine ⟨by linarith, by norm_num; linarith, ?_⟩
      rw [abs_le]
      rcases le_total (2047 / 10 : Rat) x with h3 | h3
      · rw [min_eq_left h3]
        norm_num
        constructor <;> linarith
      · rw [min_eq_right h3]
        norm_num
        constructor <;> linarith
    · rw [if_neg hc]
      have hc' := not_lt.1 hc
      refine ⟨h, by norm_num; linarith, ?_⟩
      rw [abs_le]
      rcases le_total (2047 / 10 : Rat) x with h3 | h3
      · rw [min_eq_left h3]
        norm_num
        constructor <;> linarith
      · rw [min_eq_right h3]
        norm_num
  obtain ⟨y0, y1, y2⟩ := hyr
  unfold setHdop getHdop
  rw [← hM, ← hr, ← hy]
  -- the quotient
  obtain ⟨q, hq⟩ : ∃ q, q = y / r := ⟨_, rfl⟩
  have hqr : q * r = y := by rw [hq]; exact div_mul_cancel₀ y (ne_of_gt rpos)
  have q0 : 0 ≤ q := by rw [hq]; exact div_nonneg y0 (le_of_lt rpos)
  have q1 : q ≤ 2047 + 1 / 2 ^ 20 := by
    by_contra hcon
    have hcon' := not_le.1 hcon
    have : (2047 + 1 / 2 ^ 20) * r < q * r := mul_lt_mul_of_pos_right hcon' rpos
    rw [hqr] at this
    norm_num at this y1
    linarith
  rw [← hq]
  obtain ⟨d1, d2⟩ := near1 R q (2 ^ 12) (by norm_num) (by norm_num) (by norm_num; linarith) (by norm_num at q1 ⊢; linarith)
  obtain ⟨d, hd⟩ : ∃ d, d = rd q := ⟨_, rfl⟩
  rw [← hd] at d1 d2 ⊢
  norm_num at d1 d2 q1
  obtain ⟨l1, l2⟩ := lrint_near d
  obtain ⟨i, hi⟩ : ∃ i, i = lrint d := ⟨_, rfl⟩
  rw [← hi] at l1 l2 ⊢
  have hb : 0 ≤ i ∧ i ≤ 2047 := by
    apply int_bounds
    · push_cast; linarith
    · push_cast; linarith
  obtain ⟨f1, _⟩ := field_of 11 i hb.1 (by omega)
  rw [f1]
  have i0 : (0 : Rat) ≤ i := by exact_mod_cast hb.1
  have i1 : (i : Rat) ≤ 2047 := by exact_mod_cast hb.2
  have p1 : (i : Rat) * r ≤ 2047 * r := mul_le_mul_of_nonneg_right i1 (le_of_lt rpos)
  have p0 : 0 ≤ (i : Rat) * r := mul_nonneg i0 (le_of_lt rpos)
  have t1 : ((i : Rat) - q) * r ≤ (1 / 2 + 1 / 2 ^ 39) * r :=
    mul_le_mul_of_nonneg_right (by norm_num; linarith) (le_of_lt rpos)
  have t2 : -(1 / 2 + 1 / 2 ^ 39) * r ≤ ((i : Rat) - q) * r :=
    mul_le_mul_of_nonneg_right (by norm_num; linarith) (le_of_lt rpos)
  have t3 : ((i : Rat) - q) * r = (i : Rat) * r - y := by rw [sub_mul, hqr]
  rw [t3] at t1 t2
  obtain ⟨g1, g2⟩ := near1 R ((i : Rat) * r) (2 ^ 8) (by norm_num) (by norm_num) (by norm_num; linarith) (by norm_num; linarith)
  have y2' := abs_le.1 y2
  obtain ⟨z1, z2⟩ := y2'
  obtain ⟨w, hw⟩ : ∃ w, w = min (2047 / 10) x := ⟨_, rfl⟩
  rw [← hw] at z1 z2 ⊢
  rw [abs_le]
  norm_num at *
  constructor <;> linarith

example : setHdop (fun x => x) (27 / 10) = 27 ∧ setHdop (fun x => x) 1000 = 2047 := by decide +kernel

theorem C123_hdop_negation : setHdop (fun x => x) (-1 / 10) = 2047 := by decide +kernel

/-! ### Times -/

/-- A time of day together with a clock that is less than twelve hours off gives
the time that was meant. -/
theorem C123_time (t now : Nat) (h1 : t < now + 43200) (h2 : now < t + 43200) :
    secs (getTime (setTime (t % 86400 / 3600) (t % 3600 / 60) (t % 60)) now) = t := by
  have e : setTime (t % 86400 / 3600) (t % 3600 / 60) (t % 60) = t % 86400 := by
    unfold setTime; omega
  rw [e]
  have hd : dayOf (t % 86400) now = t / 86400 := by
    unfold dayOf
    by_cases ha : now % 86400 ≤ 43200
    · rw [if_pos ha]
      by_cases hb : t % 86400 > now % 86400 + 43200
      · rw [if_pos hb]; omega
      · rw [if_neg hb]; omega
    · rw [if_neg ha]
      by_cases hb : t % 86400 < now % 86400 - 43200
      · rw [if_pos hb]; omega
      · rw [if_neg hb]; omega
  unfold secs getTime
  simp only []
  rw [hd]
  omega

example : getTime (setTime 23 59 50) (20000 * 86400 + 10) = ⟨19999, 23, 59, 50⟩ ∧
    getTime (setTime 0 0 10) (20000 * 86400 + 86390) = ⟨20001, 0, 0, 10⟩ := by decide

/-- A leap second comes out a day early. -/
theorem C123_leap_negation (day : Nat) :
    getTime (setTime 23 59 60) (86400 * day + 86399) = ⟨day, 0, 0, 0⟩ := by
  have e : setTime 23 59 60 = 86400 := by decide
  rw [e]
  unfold getTime dayOf
  rw [if_neg (by omega), if_neg (by omega)]
  have : (86400 * day + 86399) / 86400 = day := by omega
  rw [this]

private theorem from_zero (m : Nat) : fromOlsr m 0 = bound m := by
  unfold fromOlsr bound
  rw [Nat.zero_add]

private theorem bound_mono (m : Nat) : bound m < bound (m + 1) := by
  unfold bound
  have h1 : 1 ≤ 2 ^ m := Nat.one_le_two_pow
  have h2 : 2 ^ (m + 1) = 2 * 2 ^ m := by rw [Nat.pow_succ]; omega
  rw [h2]
  omega

private theorem search_spec (v : Nat) : ∀ fuel msn, 1 ≤ msn → msn + fuel = 16 → bound (msn - 1) ≤ v →
    msn ≤ search v fuel msn ∧ search v fuel msn ≤ 16 ∧ bound (search v fuel msn - 1) ≤ v ∧
    (v < bound (search v fuel msn) ∨ search v fuel msn = 16) := by
  intro fuel
  induction fuel with
  | zero =>
    intro msn h1 h2 h3
    unfold search
    exact ⟨Nat.le_refl _, by omega, h3, Or.inr (by omega)⟩
  | succ fuel ih =>
    intro msn h1 h2 h3
    unfold search
    rw [from_zero]
    by_cases hc : v ≥ bound msn
    · rw [if_pos hc]
      obtain ⟨i1, i2, i3, i4⟩ := ih (msn + 1) (by omega) (by omega) (by simpa using hc)
      exact ⟨by omega, i2, i3, i4⟩
    · rw [if_neg hc]
      exact ⟨Nat.le_refl _, by omega, h3, Or.inl (by omega)⟩

private theorem bound_le {m n : Nat} (h : m ≤ n) : bound m ≤ bound n := by
  unfold bound
  have : 2 ^ m ≤ 2 ^ n := Nat.pow_le_pow_right (by omega) h
  omega

/-- The exponent for a validity time. -/
private theorem expo (v : Nat) : ∃ m, search v 15 1 = m + 1 ∧ m ≤ 15 ∧ bound m ≤ v ∧
    (v < bound (m + 1) ∨ m = 15) := by
  obtain ⟨h1, h2, h3, h4⟩ := search_spec v 15 1 (by omega) (by omega) (by unfold bound; omega)
  refine ⟨search v 15 1 - 1, by omega, by omega, h3, ?_⟩
  rcases h4 with h4 | h4
  · left
    rw [show search v 15 1 - 1 + 1 = search v 15 1 by omega]
    exact h4
  · right; omega

private theorem lsn_small (m v : Nat) (hl : bound m ≤ v) (hu : v < bound (m + 1)) :
    (v - bound m + 2 ^ m / 2) / 2 ^ m ≤ 16 ∧
    ((v - bound m + 2 ^ m / 2) / 2 ^ m = 16 ↔ 1 ≤ m ∧ bound (m + 1) ≤ v + 2 ^ (m - 1)) := by
  have hpos : 0 < 2 ^ m := Nat.two_pow_pos m
  have hb : bound (m + 1) = bound m + 16 * 2 ^ m := by
    unfold bound
    rw [Nat.pow_succ]
    omega
  obtain ⟨w, hw⟩ : ∃ w, w = v - bound m := ⟨_, rfl⟩
  have hw' : v = bound m + w := by omega
  rw [← hw]
  have hlt : w < 16 * 2 ^ m := by omega
  constructor
  · apply Nat.le_of_lt_succ
    rw [Nat.div_lt_iff_lt_mul hpos]
    omega
  · rw [show ((w + 2 ^ m / 2) / 2 ^ m = 16) ↔ 16 ≤ (w + 2 ^ m / 2) / 2 ^ m from
      ⟨fun h => Nat.le_of_eq h.symm, fun h => Nat.le_antisymm (by
        apply Nat.le_of_lt_succ
        rw [Nat.div_lt_iff_lt_mul hpos]
        omega) h⟩, Nat.le_div_iff_mul_le hpos]
    rw [hb, hw']
    cases m with
    | zero => simp at hlt ⊢; omega
    | succ k =>
      have hk : 2 ^ (k + 1) = 2 * 2 ^ k := by rw [Nat.pow_succ]; omega
      rw [show k + 1 - 1 = k by rfl, hk, Nat.mul_div_cancel_left _ (by omega : 0 < 2)]
      constructor
      · intro h; exact ⟨by omega, by omega⟩
      · rintro ⟨_, h⟩; omega

/-- A validity time (in seconds) is announced, if at all, with an error of at most
half of a sixteenth of itself and 16 seconds; from 1048560 seconds on it is announced
as 1015792. -/
theorem C123_validity_partial (v f : Nat) (h : setValidity v = some f) :
    f < 256 ∧ (v < 1048560 → 32 * getValidity f ≤ 32 * v + (v + 16) ∧ 32 * v ≤ 32 * getValidity f + (v + 16)) ∧
    (1048560 ≤ v → getValidity f = 1015792) := by
  obtain ⟨m, hm, hm15, hl, hu⟩ := expo v
  unfold setValidity at h
  rw [hm, show m + 1 - 1 = m by rfl] at h
  have hb16 : bound 16 = 1048560 := by decide
  by_cases hc : lsnOf v m ≤ 15
  · rw [if_pos hc] at h
    obtain ⟨l, hl'⟩ : ∃ l, l = lsnOf v m := ⟨_, rfl⟩
    rw [← hl'] at h hc
    cases h
    refine ⟨by omega, ?_, ?_⟩
    · intro hv
      have hu' : v < bound (m + 1) := by
        rcases hu with hu | rfl
        · exact hu
        · rw [hb16]; exact hv
      have hg : getValidity (16 * m + l) = (l + 16) * 2 ^ m - 16 := by
        unfold getValidity fromOlsr
        rw [show (16 * m + l) / 16 = m by omega, show (16 * m + l) % 16 = l by omega]
      unfold lsnOf at hl'
      rw [from_zero, from_zero, if_neg (by omega)] at hl'
      have hpos : 0 < 2 ^ m := Nat.two_pow_pos m
      have hd1 : l * 2 ^ m ≤ v - bound m + 2 ^ m / 2 := by
        rw [hl']; exact Nat.div_mul_le_self _ _
      have hd2 : v - bound m + 2 ^ m / 2 < (l + 1) * 2 ^ m := by
        rw [hl']; exact (by
          rw [Nat.add_mul, Nat.one_mul]; exact Nat.lt_div_mul_add hpos)
      rw [hg]
      unfold bound at hl hd1 hd2
      obtain ⟨p, hp⟩ : ∃ p, p = 2 ^ m := ⟨_, rfl⟩
      obtain ⟨lp, hlp⟩ : ∃ lp, lp = l * p := ⟨_, rfl⟩
      rw [← hp] at hd1 hd2 hl hpos ⊢
      rw [Nat.add_mul, ← hlp]
      rw [← hlp] at hd1
      rw [Nat.add_mul, ← hlp] at hd2
      omega
    · intro hv
      have hm' : m = 15 := by
        rcases hu with hu | hu
        · have := bound_le (show m + 1 ≤ 16 by omega)
          omega
        · exact hu
      subst hm'
      unfold lsnOf at hl'
      rw [from_zero, if_pos (by rw [hb16]; exact hv)] at hl'
      subst hl'
      decide
  · rw [if_neg hc] at h; cases h

example : setValidity 60 = some 0x23 ∧ getValidity 0x23 = 60 ∧ setValidity 100 = some 0x2d ∧
    getValidity 0x2d = 100 := by decide

/-- Just below each of the fifteen bounds the assertion fails and the daemon ends:
exactly for the times in the last half step. -/
theorem C123_validity_negation (v : Nat) : setValidity v = none ↔
    ∃ m, 1 ≤ m ∧ m ≤ 15 ∧ bound (m + 1) - 2 ^ (m - 1) ≤ v ∧ v < bound (m + 1) := by
  have hhalf : ∀ m, 1 ≤ m → 2 ^ (m - 1) ≤ bound (m + 1) - bound m := by
    intro m h
    unfold bound
    have h1 : 2 ^ (m + 1) = 2 * 2 ^ m := by rw [Nat.pow_succ]; omega
    have h2 : 2 ^ (m - 1) ≤ 2 ^ m := Nat.pow_le_pow_right (by omega) (by omega)
    rw [h1]
    omega
  obtain ⟨m, hm, hm15, hl, hu⟩ := expo v
  unfold setValidity
  rw [hm, show m + 1 - 1 = m by rfl]
  unfold lsnOf
  rw [from_zero, from_zero]
  by_cases hv : v ≥ bound (m + 1)
  · rw [if_pos hv, if_pos (by omega)]
    constructor
    · intro h; cases h
    · rintro ⟨k, k1, k2, k3, k4⟩
      have hm' : m = 15 := by
        rcases hu with hu | hu
        · omega
        · exact hu
      have := bound_le (show k + 1 ≤ m + 1 by omega)
      omega
  · rw [if_neg hv]
    obtain ⟨s1, s2⟩ := lsn_small m v hl (by omega)
    by_cases h16 : (v - bound m + 2 ^ m / 2) / 2 ^ m = 16
    · rw [if_neg (by omega)]
      obtain ⟨t1, t2⟩ := s2.1 h16
      exact ⟨fun _ => ⟨m, t1, hm15, by omega, by omega⟩, fun _ => rfl⟩
    · rw [if_pos (by omega)]
      constructor
      · intro h; cases h
      · rintro ⟨k, k1, k2, k3, k4⟩
        exfalso
        have hk : k = m := by
          by_contra hne
          rcases Nat.lt_or_gt_of_ne hne with hlt | hgt
          · have := bound_le (show k + 1 ≤ m by omega)
            omega
          · have h1 := bound_le (show m + 1 ≤ k by omega)
            have h2 := hhalf k k1
            omega
        subst hk
        exact h16 (s2.2 ⟨k1, by omega⟩)

/-- 47, 110 and 111 seconds are among them. -/
example : setValidity 47 = none ∧ setValidity 48 = some 0x20 ∧ setValidity 109 = some 0x2f ∧
    setValidity 110 = none ∧ setValidity 111 = none := by decide

end Verif.PudPos
