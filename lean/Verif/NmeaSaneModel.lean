/-!
# Model of `nmeaInfoSanitise` (lib/pud/nmealib/src/info.c 216-667)

Numbers are exact: latitude and longitude are counted in 1/10000 of the last place before the point of the NMEA form
(degrees and minutes, `ddmm.mmmm`), the other values of type `double` in 1/10000 of their unit.  Values that are not finite,
and those so great that subtracting 360 does not change a `double`, are left out.  The information is not metric
at the start (`nmeaInfoUnitConversion` does nothing).  Fields that are only set to 0 when they are not present are left out.
-/

namespace Verif.NmeaSane

/-- `NmeaSatellite` (info.h 204-209). -/
structure Sat where
  prn : Nat
  elv : Int
  azi : Nat
  snr : Nat
deriving DecidableEq, Repr

/-- `NmeaTime` (info.h 162-170). -/
structure Time where
  year : Nat
  mon : Nat
  day : Nat
  hour : Nat
  min : Nat
  sec : Nat
  hsec : Nat
deriving DecidableEq, Repr

/-- The bits of `present` that are used. -/
structure Pres where
  date : Bool
  time : Bool
  sig : Bool
  fix : Bool
  pdop : Bool
  hdop : Bool
  vdop : Bool
  lat : Bool
  lon : Bool
  speed : Bool
  track : Bool
  mtrack : Bool
  magvar : Bool
  age : Bool
  view : Bool
deriving DecidableEq, Repr

/-- `NmeaInfo` (info.h 231-253). -/
structure Info where
  pres : Pres
  utc : Time
  sig : Nat
  fix : Nat
  pdop : Int
  hdop : Int
  vdop : Int
  lat : Int
  lon : Int
  speed : Int
  track : Int
  mtrack : Int
  magvar : Int
  age : Int
  inProgress : Bool
  view : List Sat
deriving DecidableEq, Repr

/-- `while (x < lo) x += m`; all calls have `m > 0`. -/
def raise (lo : Int) (m : Nat) (x : Int) : Int := if x < lo ∧ 0 < m then raise lo m (x + m) else x
termination_by (lo - x).toNat
decreasing_by omega

/-- `while (x > hi) x -= m`; all calls have `m > 0`. -/
def lower (hi : Int) (m : Nat) (x : Int) : Int := if x > hi ∧ 0 < m then lower hi m (x - m) else x
termination_by (x - hi).toNat
decreasing_by omega

/-- A field of the date: the current one if it is not present (info.c 251-255), else its limits (info.c 357-373). -/
def dateField (p : Bool) (lo hi x now : Nat) : Nat :=
  if p = true then (if x < lo then lo else if x > hi then hi else x) else now

/-- A field of the time: the current one if it is not present (info.c 257-262); the remainder if the date is present
(info.c 375-380). -/
def timeField (pd pt : Bool) (m x now : Nat) : Nat :=
  if pd = true then (if pt = true then x else now) % m else (if pt = true then x else now)

/-- `utc` (info.c 249-262, 357-380). -/
def doUtc (p : Pres) (t now : Time) : Time :=
  ⟨dateField p.date 1990 2189 t.year now.year, dateField p.date 1 12 t.mon now.mon, dateField p.date 1 31 t.day now.day,
   timeField p.date p.time 24 t.hour now.hour, timeField p.date p.time 60 t.min now.min,
   timeField p.date p.time 61 t.sec now.sec, timeField p.date p.time 100 t.hsec now.hsec⟩

/-- `sig` (info.c 264-266, 386-390). -/
def doSig (p : Bool) (x : Nat) : Nat := if p = true then (if x > 8 then 0 else x) else 0

/-- `fix` (info.c 268-270, 396-401). -/
def doFix (p : Bool) (x : Nat) : Nat := if p = true then (if x < 1 ∨ x > 3 then 1 else x) else 1

/-- The values that become positive: the precisions and the age (info.c 272-282, 316-318, 407-425, 597-599). -/
def doAbs (p : Bool) (x : Int) : Int := if p = true then (if x < 0 then -x else x) else 0

/-- The latitude, and whether the longitude is turned (info.c 284-286, 434-468). -/
def doLat (p : Bool) (x : Int) : Int × Bool :=
  if p = true then
    let y := lower 180000000 360000000 (raise (-180000000) 360000000 x)
    if y > 90000000 then (180000000 - y, true)
    else if y < -90000000 then (-180000000 - y, true)
    else (y, false)
  else (0, false)

/-- The longitude (info.c 288-290, 474-490). -/
def doLon (p turned : Bool) (x : Int) : Int :=
  if p = true then
    lower 180000000 360000000 (raise (-180000000) 360000000 (if turned = true then x + 180000000 else x))
  else 0

/-- The speed, and whether the tracks are turned (info.c 300-302, 508-523). -/
def doSpeed (p : Bool) (x : Int) : Int × Bool := if p = true then (if x < 0 then (-x, true) else (x, false)) else (0, false)

/-- A track, or the magnetic variation, which is not turned (info.c 304-314, 529-591); `x >= 360` of exact numbers is
`x > 360 - 1/10000`. -/
def doAngle (p turned : Bool) (x : Int) : Int :=
  if p = true then lower 3599999 3600000 (raise 0 3600000 (if turned = true then x + 1800000 else x)) else 0

/-- Elevation and azimuth after the elevation was brought into [-180, 180] (info.c 640-650); the azimuth is an `unsigned int`. -/
def turn (e : Int) (a : Nat) : Int × Nat :=
  if e > 90 then (180 - e, (a + 180) % 4294967296)
  else if e < -90 then (-180 - e, (a + 180) % 4294967296)
  else (e, a)

/-- `while (azimuth >= 360) azimuth -= 360` (info.c 655-657). -/
def doAzimuth (a : Nat) : Nat := if a ≥ 360 then doAzimuth (a - 360) else a
termination_by a
decreasing_by omega

/-- One satellite (info.c 630-664). -/
def doSat (s : Sat) : Sat :=
  ⟨s.prn, (turn (lower 180 360 (raise (-180) 360 s.elv)) s.azi).1,
   doAzimuth (turn (lower 180 360 (raise (-180) 360 s.elv)) s.azi).2, if s.snr > 99 then 99 else s.snr⟩

/-- The loop over the satellites (info.c 624-665). -/
def doSats : List Sat → List Sat
  | [] => []
  | s :: ss => if s.prn = 0 then s :: ss else doSat s :: doSats ss

/-- `qsort` with `nmeaQsortSatelliteCompact` (info.c 621-622, 759-790), which keeps the order of equal elements as
in glibc. -/
def compact (l : List Sat) : List Sat := l.filter (fun s => decide (s.prn ≠ 0)) ++ l.filter (fun s => decide (s.prn = 0))

/-- The satellites in view (info.c 336-339, 619-666). -/
def doView (p inProgress : Bool) (l : List Sat) : List Sat :=
  if inProgress = true then l
  else if p = true then doSats (compact l)
  else l.map (fun _ => ⟨0, 0, 0, 0⟩)

/-- `nmeaInfoSanitise` (info.c 216-667).  A value is stored only if it was adjusted; that is the same as to store it always. -/
def sanitise (now : Time) (i : Info) : Info :=
  { pres := i.pres
    utc := doUtc i.pres i.utc now
    sig := doSig i.pres.sig i.sig
    fix := doFix i.pres.fix i.fix
    pdop := doAbs i.pres.pdop i.pdop
    hdop := doAbs i.pres.hdop i.hdop
    vdop := doAbs i.pres.vdop i.vdop
    lat := (doLat i.pres.lat i.lat).1
    lon := doLon i.pres.lon (doLat i.pres.lat i.lat).2 i.lon
    speed := (doSpeed i.pres.speed i.speed).1
    track := doAngle i.pres.track (doSpeed i.pres.speed i.speed).2 i.track
    mtrack := doAngle i.pres.mtrack (doSpeed i.pres.speed i.speed).2 i.mtrack
    magvar := doAngle i.pres.magvar false i.magvar
    age := doAbs i.pres.age i.age
    inProgress := i.inProgress
    view := doView i.pres.view i.inProgress i.view }

end Verif.NmeaSane
