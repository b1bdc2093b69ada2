import Verif.NmeaSaneLemmas

/-!
# C147: the sanitising of nmealib gives sane information and keeps what is sane
-/

namespace Verif.NmeaSane

private theorem abs_ok (p : Bool) (x : Int) : NotNeg p (doAbs p x) := by
  unfold NotNeg doAbs
  cases p
  · simp
  · refine ⟨?_, by simp⟩
    rw [if_pos rfl]; split <;> omega

private theorem abs_id (p : Bool) (x : Int) (h : NotNeg p x) : doAbs p x = x := by
  unfold doAbs
  cases p
  · rw [if_neg (by simp), h.2 rfl]
  · rw [if_pos rfl, if_neg]; have := h.1; omega

private theorem angle_ok (p turned : Bool) (x : Int) : InRange p 0 (360 * 10000 - 1) (doAngle p turned x) 0 := by
  unfold InRange doAngle
  cases p
  · simp
  · refine ⟨fun _ => ?_, by simp⟩
    rw [if_pos rfl]
    exact (wrap_ok 0 3599999 3600000 (by decide) (by decide) _).2

private theorem angle_id (p : Bool) (x : Int) (h : InRange p 0 (360 * 10000 - 1) x 0) : doAngle p false x = x := by
  unfold doAngle
  cases p
  · rw [if_neg (by simp), h.2 rfl]
  · have := h.1 rfl
    rw [if_pos rfl, if_neg (by simp), wrap_id _ _ _ _ (by omega) (by omega)]

private theorem lat_ok (p : Bool) (x : Int) : InRange p (-9000 * 10000) (9000 * 10000) (doLat p x).1 0 := by
  unfold InRange doLat
  cases p
  · simp
  · refine ⟨fun _ => ?_, by simp⟩
    rw [if_pos rfl]
    obtain ⟨_, h1, h2⟩ := wrap_ok (-180000000) 180000000 360000000 (by decide) (by decide) x
    obtain ⟨y, hy⟩ : ∃ y, y = lower 180000000 360000000 (raise (-180000000) 360000000 x) := ⟨_, rfl⟩
    rw [← hy] at h1 h2 ⊢
    simp only []
    split
    · simp only []; omega
    · split
      · simp only []; omega
      · simp only []; omega

private theorem lat_id (p : Bool) (x : Int) (h : InRange p (-9000 * 10000) (9000 * 10000) x 0) : doLat p x = (x, false) := by
  unfold doLat
  cases p
  · rw [if_neg (by simp), h.2 rfl]
  · have := h.1 rfl
    rw [if_pos rfl]
    simp only []
    rw [wrap_id _ _ _ _ (by omega) (by omega), if_neg (by omega), if_neg (by omega)]

private theorem lon_ok (p turned : Bool) (x : Int) : InRange p (-18000 * 10000) (18000 * 10000) (doLon p turned x) 0 := by
  unfold InRange doLon
  cases p
  · simp
  · refine ⟨fun _ => ?_, by simp⟩
    rw [if_pos rfl]
    have := (wrap_ok (-180000000) 180000000 360000000 (by decide) (by decide) (if turned = true then x + 180000000 else x)).2
    omega

private theorem lon_id (p : Bool) (x : Int) (h : InRange p (-18000 * 10000) (18000 * 10000) x 0) : doLon p false x = x := by
  unfold doLon
  cases p
  · rw [if_neg (by simp), h.2 rfl]
  · have := h.1 rfl
    rw [if_pos rfl, if_neg (by simp), wrap_id _ _ _ _ (by omega) (by omega)]

private theorem speed_ok (p : Bool) (x : Int) : NotNeg p (doSpeed p x).1 := by
  unfold NotNeg doSpeed
  cases p
  · simp
  · refine ⟨?_, by simp⟩
    rw [if_pos rfl]; split
    · simp only []; omega
    · simp only []; omega

private theorem speed_id (p : Bool) (x : Int) (h : NotNeg p x) : doSpeed p x = (x, false) := by
  unfold doSpeed
  cases p
  · rw [if_neg (by simp), h.2 rfl]
  · rw [if_pos rfl, if_neg]; have := h.1; omega

private theorem view_ok (p g : Bool) (l : List Sat) : ViewFine p g (doView p g l) := by
  intro hg
  subst hg
  unfold doView
  cases p with
  | true =>
    refine ⟨fun _ => ?_, by simp⟩
    rw [if_neg (by simp), if_pos rfl, view_eq]
    refine ⟨_, _, rfl, fun s hs => ?_, fun s hs => by simpa using (List.mem_filter.mp hs).2⟩
    obtain ⟨s', hs', rfl⟩ := List.mem_map.mp hs
    have := (List.mem_filter.mp hs').2
    exact ⟨by rw [(sat_fine s').2]; simpa using this, (sat_fine s').1⟩
  | false =>
    refine ⟨by simp, fun _ s hs => ?_⟩
    rw [if_neg (by simp), if_neg (by simp)] at hs
    obtain ⟨_, _, rfl⟩ := List.mem_map.mp hs
    rfl

private theorem view_id (p g : Bool) (l : List Sat) (h : ViewFine p g l) : doView p g l = l := by
  unfold doView
  cases g with
  | true => rw [if_pos rfl]
  | false =>
    rw [if_neg (by simp)]
    cases p with
    | true =>
      rw [if_pos rfl]
      obtain ⟨a, b, hl, ha, hb⟩ := (h rfl).1 rfl
      rw [hl, compact_id a b (fun s hs => (ha s hs).1) hb, sats_split a b (fun s hs => (ha s hs).1) hb]
      congr 1
      exact (List.map_congr_left (fun s hs => sat_id s (ha s hs).2)).trans (List.map_id _)
    | false =>
      rw [if_neg (by simp)]
      have := (h rfl).2 rfl
      exact (List.map_congr_left (fun s hs => (this s hs).symm)).trans (List.map_id _)

/-- Whatever the information was: afterwards everything but the time is in its range, and what is not present has its default. -/
theorem C147_sane (now : Time) (i : Info) : Sane now (sanitise now i) where
  date := by
    refine ⟨fun h => ?_, fun h => ?_⟩
    · have h' : i.pres.date = true := h
      simp only [sanitise, doUtc, dateField, h', if_true]
      refine ⟨?_, ?_, ?_⟩ <;> (repeat' split) <;> omega
    · have h' : i.pres.date = false := h
      simp [sanitise, doUtc, dateField, h']
  sig := by
    refine ⟨fun h => ?_, fun h => ?_⟩
    · have h' : i.pres.sig = true := h
      simp only [sanitise, doSig, h', if_true]
      split <;> omega
    · have h' : i.pres.sig = false := h
      simp [sanitise, doSig, h']
  fix := by
    refine ⟨fun h => ?_, fun h => ?_⟩
    · have h' : i.pres.fix = true := h
      simp only [sanitise, doFix, h', if_true]
      split <;> omega
    · have h' : i.pres.fix = false := h
      simp [sanitise, doFix, h']
  pdop := abs_ok _ _
  hdop := abs_ok _ _
  vdop := abs_ok _ _
  lat := lat_ok _ _
  lon := lon_ok _ _ _
  speed := speed_ok _ _
  track := angle_ok _ _ _
  mtrack := angle_ok _ _ _
  magvar := angle_ok _ _ _
  age := abs_ok _ _
  view := view_ok _ _ _

private def all : Pres := ⟨true, true, true, true, true, true, true, true, true, true, true, true, true, true, true⟩

private def noon : Time := ⟨2026, 11, 18, 12, 0, 0, 0⟩

private def wild : Info :=
  ⟨all, ⟨1, 13, 0, 24, 60, 61, 100⟩, 9, 0, -1, -2, 3, 100000000, 0, -50000, 0, 1800000, -1, -7, false,
    [⟨0, 7, 7, 7⟩, ⟨5, 100, 10, 120⟩]⟩

example : sanitise noon wild =
    ⟨all, ⟨1990, 12, 1, 0, 0, 0, 0⟩, 0, 1, 1, 2, 3, 80000000, 180000000, 50000, 1800000, 0, 3599999, 7, false,
      [⟨5, 80, 190, 99⟩, ⟨0, 7, 7, 7⟩]⟩ := by
  simp [sanitise, wild, doUtc, dateField, timeField, doSig, doFix, doAbs, doLat, doLon, doSpeed, doAngle, doView, doSats, compact, all,
    doSat, turn, raise, lower, doAzimuth]

/-- The time afterwards is in its range if it was, or if the date is present as well.

What is missing for the full property: a time without a date, see `C147_time_negation`. -/
theorem C147_time_partial (now : Time) (i : Info) (hn : TimeRange now)
    (h : i.pres.date = true ∨ i.pres.time = false ∨ TimeRange i.utc) :
    TimeFine i.pres.time now (sanitise now i).utc := by
  obtain ⟨n1, n2, n3, n4⟩ := hn
  have key : ∀ m x n : Nat, n < m → (i.pres.date = true ∨ i.pres.time = false ∨ x < m) →
      timeField i.pres.date i.pres.time m x n < m ∧ (i.pres.time = false → timeField i.pres.date i.pres.time m x n = n) := by
    intro m x n hnm hx
    unfold timeField
    refine ⟨?_, fun ht => ?_⟩
    · split
      · exact Nat.mod_lt _ (by omega)
      · next hd =>
        split
        · next ht =>
          rcases hx with hx | hx | hx
          · exact absurd hx hd
          · rw [hx] at ht; cases ht
          · exact hx
        · exact hnm
    · rw [ht]; simp [Nat.mod_eq_of_lt hnm]
  have hx : ∀ m x : Nat, (TimeRange i.utc → x < m) → (i.pres.date = true ∨ i.pres.time = false ∨ x < m) := by
    intro m x hh
    rcases h with h | h | h
    · exact Or.inl h
    · exact Or.inr (Or.inl h)
    · exact Or.inr (Or.inr (hh h))
  have k1 := key 24 i.utc.hour now.hour (by omega) (hx _ _ (fun h => by have := h.1; omega))
  have k2 := key 60 i.utc.min now.min (by omega) (hx _ _ (fun h => by have := h.2.1; omega))
  have k3 := key 61 i.utc.sec now.sec (by omega) (hx _ _ (fun h => by have := h.2.2.1; omega))
  have k4 := key 100 i.utc.hsec now.hsec (by omega) (hx _ _ (fun h => by have := h.2.2.2; omega))
  refine ⟨⟨Nat.le_of_lt_succ k1.1, Nat.le_of_lt_succ k2.1, Nat.le_of_lt_succ k3.1, Nat.le_of_lt_succ k4.1⟩,
    fun ht => ⟨k1.2 ht, k2.2 ht, k3.2 ht, k4.2 ht⟩⟩

example : TimeRange noon ∧ (sanitise noon wild).utc.hour = 0 := by
  refine ⟨by unfold TimeRange noon; decide, ?_⟩
  simp [sanitise, wild, doUtc, timeField, all]

/-- A time that is present without a date stays as it is: the code asks for the date where it means the time. -/
theorem C147_time_negation : ∃ i, i.pres.time = true ∧ ¬ TimeRange (sanitise noon i).utc ∧ (sanitise noon i).utc.hour = 99 := by
  refine ⟨{ wild with pres := { all with date := false }, utc := ⟨2026, 1, 1, 99, 0, 0, 0⟩ }, rfl, ?_, ?_⟩
  · intro h
    have : (99 : Nat) ≤ 23 := h.1
    omega
  · rfl

/-- Sane information is kept as it is. -/
theorem C147_keeps (now : Time) (i : Info) (h : Sane now i) (ht : TimeFine i.pres.time now i.utc) : sanitise now i = i := by
  have hd : doUtc i.pres i.utc now = i.utc := by
    obtain ⟨⟨r1, r2, r3, r4⟩, r5⟩ := ht
    have key : ∀ m x n : Nat, x < m → (i.pres.time = false → x = n) → timeField i.pres.date i.pres.time m x n = x := by
      intro m x n hx hn
      unfold timeField
      have : (if i.pres.time = true then x else n) = x := by
        split
        · rfl
        · next hf => exact (hn (by simpa using hf)).symm
      rw [this, Nat.mod_eq_of_lt hx]
      simp
    have dkey : ∀ lo hi x n : Nat, (i.pres.date = true → lo ≤ x ∧ x ≤ hi) → (i.pres.date = false → x = n) →
        dateField i.pres.date lo hi x n = x := by
      intro lo hi x n hx hn
      unfold dateField
      split
      · next hp => have := hx hp; rw [if_neg (by omega), if_neg (by omega)]
      · next hp => exact (hn (by simpa using hp)).symm
    unfold doUtc
    rw [key 24 _ _ (by omega) (fun h => (r5 h).1), key 60 _ _ (by omega) (fun h => (r5 h).2.1),
      key 61 _ _ (by omega) (fun h => (r5 h).2.2.1), key 100 _ _ (by omega) (fun h => (r5 h).2.2.2),
      dkey _ _ _ _ (fun p => (h.date.1 p).1) (fun p => (h.date.2 p).1),
      dkey _ _ _ _ (fun p => (h.date.1 p).2.1) (fun p => (h.date.2 p).2.1),
      dkey _ _ _ _ (fun p => (h.date.1 p).2.2) (fun p => (h.date.2 p).2.2)]
  have hs : doSig i.pres.sig i.sig = i.sig := by
    unfold doSig
    split
    · next p => have := h.sig.1 p; rw [if_neg (by omega)]
    · next p => have := h.sig.2 (by simpa using p); omega
  have hf : doFix i.pres.fix i.fix = i.fix := by
    unfold doFix
    split
    · next p => have := h.fix.1 p; rw [if_neg (by omega)]
    · next p => have := h.fix.2 (by simpa using p); omega
  unfold sanitise
  rw [hd, hs, hf, abs_id _ _ h.pdop, abs_id _ _ h.hdop, abs_id _ _ h.vdop, lat_id _ _ h.lat, lon_id _ _ h.lon, speed_id _ _ h.speed,
    angle_id _ _ h.track, angle_id _ _ h.mtrack, angle_id _ _ h.magvar, abs_id _ _ h.age, view_id _ _ _ h.view]

/-- Doing it twice is the same as once. -/
theorem C147_twice (now : Time) (i : Info) (hn : TimeRange now)
    (h : i.pres.date = true ∨ i.pres.time = false ∨ TimeRange i.utc) :
    sanitise now (sanitise now i) = sanitise now i :=
  C147_keeps now _ (C147_sane now i) (C147_time_partial now i hn h)

/-- The speed becomes its amount; a negative one turns the tracks by 180 degrees; otherwise the angles only change by whole turns. -/
theorem C147_tracks (now : Time) (i : Info) (hs : i.pres.speed = true) :
    (sanitise now i).speed = (if i.speed < 0 then -i.speed else i.speed) ∧
    (i.pres.track = true → ((sanitise now i).track - (i.track + if i.speed < 0 then 180 * 10000 else 0)) % (360 * 10000) = 0) ∧
    (i.pres.mtrack = true → ((sanitise now i).mtrack - (i.mtrack + if i.speed < 0 then 180 * 10000 else 0)) % (360 * 10000) = 0) ∧
    (i.pres.magvar = true → ((sanitise now i).magvar - i.magvar) % (360 * 10000) = 0) := by
  have key : ∀ (t : Bool) (x : Int), (doAngle true t x - (x + if t = true then 1800000 else 0)) % 3600000 = 0 := by
    intro t x
    unfold doAngle
    rw [if_pos rfl]
    obtain ⟨⟨k, hk⟩, _⟩ := wrap_ok 0 3599999 3600000 (by decide) (by decide) (if t = true then x + 1800000 else x)
    rw [hk]
    cases t
    · simp only [Bool.false_eq_true, if_false]; omega
    · simp only [if_true]; omega
  have ht : (doSpeed i.pres.speed i.speed).2 = decide (i.speed < 0) := by
    unfold doSpeed; rw [hs, if_pos rfl]; split
    · next h => simp [h]
    · next h => simp [h]
  refine ⟨?_, fun p => ?_, fun p => ?_, fun p => ?_⟩
  · show (doSpeed i.pres.speed i.speed).1 = _
    unfold doSpeed; rw [hs, if_pos rfl]; split <;> rfl
  · have := key (doSpeed i.pres.speed i.speed).2 i.track
    rw [ht] at this
    show (doAngle i.pres.track (doSpeed i.pres.speed i.speed).2 i.track - _) % _ = 0
    rw [p, ht]; simpa using this
  · have := key (doSpeed i.pres.speed i.speed).2 i.mtrack
    rw [ht] at this
    show (doAngle i.pres.mtrack (doSpeed i.pres.speed i.speed).2 i.mtrack - _) % _ = 0
    rw [p, ht]; simpa using this
  · have := key false i.magvar
    show (doAngle i.pres.magvar false i.magvar - _) % _ = 0
    rw [p]; simpa using this

example : doAngle true true 1800000 = 0 ∧ doAngle true false (-1) = 3599999 := by
  constructor <;> simp [doAngle, raise, lower]

private theorem lat_dir (a b : Int) :
    ∃ a' b', (doLat true (1000000 * a)).1 = 1000000 * a' ∧
      doLon true (doLat true (1000000 * a)).2 (1000000 * b) = 1000000 * b' ∧ SameDir a b a' b' := by
  obtain ⟨⟨k, hk⟩, h1, h2⟩ := wrap_ok (-180000000) 180000000 360000000 (by decide) (by decide) (1000000 * a)
  have lonk : ∀ x : Int, ∃ l : Int, lower 180000000 360000000 (raise (-180000000) 360000000 x) = x + l * (360000000 : Nat) :=
    fun x => (wrap_ok (-180000000) 180000000 360000000 (by decide) (by decide) x).1
  unfold doLat doLon
  rw [if_pos rfl]
  obtain ⟨y, hy⟩ : ∃ y, y = lower 180000000 360000000 (raise (-180000000) 360000000 (1000000 * a)) := ⟨_, rfl⟩
  rw [← hy] at hk h1 h2 ⊢
  simp only []
  by_cases g1 : y > 90000000
  · rw [if_pos g1]
    obtain ⟨l, hl⟩ := lonk (1000000 * b + 180000000)
    refine ⟨180 - (a + 360 * k), b + 180 + 360 * l, by simp only []; omega, by simp only [if_true]; rw [hl]; omega, Or.inr ?_⟩
    constructor <;> omega
  · rw [if_neg g1]
    by_cases g2 : y < -90000000
    · rw [if_pos g2]
      obtain ⟨l, hl⟩ := lonk (1000000 * b + 180000000)
      refine ⟨-180 - (a + 360 * k), b + 180 + 360 * l, by simp only []; omega, by simp only [if_true]; rw [hl]; omega, Or.inr ?_⟩
      constructor <;> omega
    · rw [if_neg g2]
      obtain ⟨l, hl⟩ := lonk (1000000 * b)
      refine ⟨a + 360 * k, b + 360 * l, by simp only []; omega,
        by simp only [if_true, Bool.false_eq_true, if_false]; rw [hl]; omega, Or.inl ?_⟩
      constructor <;> omega

/-- A position in whole degrees stays the same direction.

What is missing for the full property: positions with minutes that are out of range, see `C147_position_negation`. -/
theorem C147_position_partial (now : Time) (i : Info) (a b : Int) (h1 : i.pres.lat = true) (h2 : i.pres.lon = true)
    (ha : i.lat = 100 * 10000 * a) (hb : i.lon = 100 * 10000 * b) :
    ∃ a' b', (sanitise now i).lat = 100 * 10000 * a' ∧ (sanitise now i).lon = 100 * 10000 * b' ∧ SameDir a b a' b' := by
  obtain ⟨a', b', k1, k2, k3⟩ := lat_dir a b
  refine ⟨a', b', ?_, ?_, k3⟩
  · show (doLat i.pres.lat i.lat).1 = _
    rw [h1, ha]; exact k1
  · show doLon i.pres.lon (doLat i.pres.lat i.lat).2 i.lon = _
    rw [h1, h2, ha, hb]; exact k2

/-- The latitude 90° 30′ becomes 89° 70′, which is still more than 90 degrees: the code calculates with the NMEA form as if it were
a number of degrees. -/
theorem C147_position_negation (now : Time) :
    ∃ i, i.pres.lat = true ∧ minutes i.lat = (90 * 60 + 30) * 10000 ∧ minutes (sanitise now i).lat = (89 * 60 + 70) * 10000 ∧
      minutes (sanitise now i).lat > 90 * 60 * 10000 := by
  have h : ∀ i : Info, i.pres.lat = true → i.lat = 90300000 → (sanitise now i).lat = 89700000 := by
    intro i hp hl
    show (doLat i.pres.lat i.lat).1 = _
    rw [hp, hl]
    unfold doLat
    rw [if_pos rfl]
    simp only []
    rw [wrap_id _ _ _ _ (by decide) (by decide), if_pos (by decide)]
    rfl
  refine ⟨{ wild with lat := 90300000 }, rfl, by decide, ?_, ?_⟩
  · rw [h _ rfl rfl]; decide
  · rw [h _ rfl rfl]; decide

/-- Every satellite with a number stays in the list, in the same direction, unless its azimuth overflows. -/
theorem C147_satellites (now : Time) (i : Info) (hp : i.pres.view = true) (hg : i.inProgress = false) :
    ∃ f : Sat → Sat, (sanitise now i).view =
        (i.view.filter (fun s => decide (s.prn ≠ 0))).map f ++ i.view.filter (fun s => decide (s.prn = 0)) ∧
      ∀ s, (f s).prn = s.prn ∧ (f s).snr = min s.snr 99 ∧
        (s.azi + 180 < 2 ^ 32 → SameDir s.elv s.azi (f s).elv (f s).azi) := by
  refine ⟨doSat, ?_, fun s => ⟨rfl, ?_, fun ha => ?_⟩⟩
  · show doView i.pres.view i.inProgress i.view = _
    unfold doView
    rw [hg, hp, if_neg (by simp), if_pos rfl, view_eq]
  · unfold doSat
    simp only []
    split <;> omega
  · obtain ⟨⟨k, hk⟩, h1, h2⟩ := wrap_ok (-180) 180 360 (by decide) (by decide) s.elv
    unfold doSat turn SameDir
    obtain ⟨e, he⟩ : ∃ e, e = lower 180 360 (raise (-180) 360 s.elv) := ⟨_, rfl⟩
    rw [← he] at hk h1 h2 ⊢
    simp only [azimuth_ok]
    by_cases g1 : e > 90
    · rw [if_pos g1]; right; simp only []; omega
    · rw [if_neg g1]
      by_cases g2 : e < -90
      · rw [if_pos g2]; right; simp only []; omega
      · rw [if_neg g2]; left; simp only []; omega

example : doSat ⟨5, 100, 10, 120⟩ = ⟨5, 80, 190, 99⟩ := by simp [doSat, turn, raise, lower, doAzimuth]

end Verif.NmeaSane
