import Verif.NmeaSaneModel

/-!
# What sane information is (C147)

Only the ranges of the comments in info.h and in the code; nothing of how they are reached.
-/

namespace Verif.NmeaSane

/-- A value that is there and in its range, or not there and the default. -/
def InRange (p : Bool) (lo hi x default : Int) : Prop := (p = true → lo ≤ x ∧ x ≤ hi) ∧ (p = false → x = default)

/-- A value that is there and not negative, or not there and 0. -/
def NotNeg (p : Bool) (x : Int) : Prop := 0 ≤ x ∧ (p = false → x = 0)

/-- The date. -/
def DateFine (p : Bool) (now t : Time) : Prop :=
  (p = true → (1990 ≤ t.year ∧ t.year ≤ 2189) ∧ (1 ≤ t.mon ∧ t.mon ≤ 12) ∧ (1 ≤ t.day ∧ t.day ≤ 31)) ∧
  (p = false → t.year = now.year ∧ t.mon = now.mon ∧ t.day = now.day)

/-- The ranges of the time (info.h 166-169). -/
def TimeRange (t : Time) : Prop := t.hour ≤ 23 ∧ t.min ≤ 59 ∧ t.sec ≤ 60 ∧ t.hsec ≤ 99

/-- The time. -/
def TimeFine (p : Bool) (now t : Time) : Prop :=
  TimeRange t ∧ (p = false → t.hour = now.hour ∧ t.min = now.min ∧ t.sec = now.sec ∧ t.hsec = now.hsec)

/-- One satellite. -/
def SatFine (s : Sat) : Prop := -90 ≤ s.elv ∧ s.elv ≤ 90 ∧ s.azi ≤ 359 ∧ s.snr ≤ 99

/-- The satellites: those with a number come first and are fine. -/
def ViewFine (p inProgress : Bool) (l : List Sat) : Prop :=
  inProgress = false →
    (p = true → ∃ a b, l = a ++ b ∧ (∀ s ∈ a, s.prn ≠ 0 ∧ SatFine s) ∧ ∀ s ∈ b, s.prn = 0) ∧
    (p = false → ∀ s ∈ l, s = ⟨0, 0, 0, 0⟩)

/-- Everything but the time is sane. -/
structure Sane (now : Time) (i : Info) : Prop where
  date : DateFine i.pres.date now i.utc
  sig : InRange i.pres.sig 0 8 i.sig 0
  fix : InRange i.pres.fix 1 3 i.fix 1
  pdop : NotNeg i.pres.pdop i.pdop
  hdop : NotNeg i.pres.hdop i.hdop
  vdop : NotNeg i.pres.vdop i.vdop
  lat : InRange i.pres.lat (-9000 * 10000) (9000 * 10000) i.lat 0
  lon : InRange i.pres.lon (-18000 * 10000) (18000 * 10000) i.lon 0
  speed : NotNeg i.pres.speed i.speed
  track : InRange i.pres.track 0 (360 * 10000 - 1) i.track 0
  mtrack : InRange i.pres.mtrack 0 (360 * 10000 - 1) i.mtrack 0
  magvar : InRange i.pres.magvar 0 (360 * 10000 - 1) i.magvar 0
  age : NotNeg i.pres.age i.age
  view : ViewFine i.pres.view i.inProgress i.view

/-- The same direction, in degrees: the same angles, or over the pole and turned around. -/
def SameDir (e a e' a' : Int) : Prop :=
  ((e' - e) % 360 = 0 ∧ (a' - a) % 360 = 0) ∨ ((e' - (180 - e)) % 360 = 0 ∧ (a' - (a + 180)) % 360 = 0)

/-- The angle in 1/10000 minutes of a number in the NMEA form. -/
def minutes (x : Int) : Int := x.tdiv 1000000 * 600000 + x.tmod 1000000

end Verif.NmeaSane
