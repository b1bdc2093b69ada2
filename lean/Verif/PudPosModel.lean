/-
Model of the position update codec of the pud plugin,
/repo/lib/pud/wireformat/src/wireFormat.c: validity time, time of day, latitude,
longitude, altitude, speed, track and HDOP.

Simplifications: a `double` is a rational number, and the result of every floating
point operation goes through a rounding function `rd` that is a parameter; NaN and
infinities are left out (the assertions fail for NaN).  The order of the bits of the
fields in memory, which the compiler chooses, is left out: a field is a number below
2 to the number of its bits.  `gmtime_r` is the division of the time by days.
Assertions are checked, which is the default (Makefile.inc 51, 328-335).
-/
namespace Verif.PudPos

/-! ### Validity time -/

/-- wireFormat.c 70: `PUD_VALIDITY_TIME_FROM_OLSR`. -/
def fromOlsr (msn lsn : Nat) : Nat := (lsn + 16) * 2 ^ msn - 16

/-- wireFormat.c 81-83: `getValidityTime`. -/
def getValidity (f : Nat) : Nat := fromOlsr (f / 16) (f % 16)

/-- wireFormat.c 98-103: the loop of `setValidityTime`; `fuel` is `16 - msn`. -/
def search (v : Nat) : Nat → Nat → Nat
  | 0, msn => msn
  | fuel + 1, msn => if v ≥ fromOlsr msn 0 then search v fuel (msn + 1) else msn

/-- wireFormat.c 105-111: the low half of the byte. -/
def lsnOf (v msn : Nat) : Nat :=
  if v ≥ fromOlsr (msn + 1) 0 then 15 else (v - fromOlsr msn 0 + 2 ^ msn / 2) / 2 ^ msn

/-- wireFormat.c 93-117: `setValidityTime`; `none` is a failed assertion. -/
def setValidity (v : Nat) : Option Nat :=
  if lsnOf v (search v 15 1 - 1) ≤ 15 then
    some (16 * (search v 15 1 - 1) + lsnOf v (search v 15 1 - 1))
  else none

/-! ### Time of day -/

/-- wireFormat.c 393-396: `setPositionUpdateTime`, a field of 17 bits. -/
def setTime (hour min sec : Nat) : Nat := (hour * 3600 + min * 60 + sec) % 2 ^ 17

/-- A broken-down time: day since the Epoch, hour, minute, second. -/
structure Tm where
  day : Nat
  hour : Nat
  min : Nat
  sec : Nat
  deriving DecidableEq, Repr

/-- wireFormat.c 346-378: the day `getPositionUpdateTime` settles on at the time
`now` for the time of day `t`. -/
def dayOf (t now : Nat) : Nat :=
  if now % 86400 ≤ 43200 then
    if t > now % 86400 + 43200 then (now - 86400) / 86400 else now / 86400
  else
    if t < now % 86400 - 43200 then (now + 86400) / 86400 else now / 86400

/-- wireFormat.c 346-378: `getPositionUpdateTime`. -/
def getTime (t now : Nat) : Tm := ⟨dayOf t now, t % 86400 / 3600, t % 3600 / 60, t % 60⟩

/-! ### Numbers -/

/-- `lrint` in the default rounding mode: to the nearest integer, halves to the even one. -/
def lrint (x : Rat) : Int :=
  if x - x.floor < 1 / 2 then x.floor
  else if 1 / 2 < x - x.floor then x.floor + 1
  else if x.floor % 2 = 0 then x.floor
  else x.floor + 1

/-- Storing into a bit field. -/
def field (bits : Nat) (i : Int) : Nat := (i % 2 ^ bits).toNat

/-- Clipping at a maximum. -/
def clip (hi x : Rat) : Rat := if hi < x then hi else x

/-- wireFormat.c 407-427: `getPositionUpdateLatitude`. -/
def getLat (rd : Rat → Rat) (n : Nat) : Rat :=
  rd (rd (rd (rd ((n : Rat) + 1 / 2) / 2 ^ 28) - 1 / 2) * 180)

/-- wireFormat.c 437-461: `setPositionUpdateLatitude`; `none` is a failed assertion. -/
def setLat (rd : Rat → Rat) (x : Rat) : Option Nat :=
  if x < -90 ∨ 90 < x then none
  else some (field 28 (lrint (clip (2 ^ 28 - 1) (rd (rd (rd (x / 180) + 1 / 2) * 2 ^ 28)))))

/-- wireFormat.c 472-492: `getPositionUpdateLongitude`. -/
def getLon (rd : Rat → Rat) (n : Nat) : Rat :=
  rd (rd (rd (rd ((n : Rat) + 1 / 2) / 2 ^ 27) - 1 / 2) * 360)

/-- wireFormat.c 502-528: `setPositionUpdateLongitude`.  The value is clipped with
the number of bits of the latitude. -/
def setLon (rd : Rat → Rat) (x : Rat) : Option Nat :=
  if x < -180 ∨ 180 < x then none
  else some (field 27 (lrint (clip (2 ^ 28 - 1) (rd (rd (rd (x / 360) + 1 / 2) * 2 ^ 27)))))

/-- wireFormat.c 538-541: `getPositionUpdateAltitude`. -/
def getAlt (n : Nat) : Int := (n : Int) - 400

/-- wireFormat.c 551-563: `setPositionUpdateAltitude`. -/
def setAlt (rd : Rat → Rat) (x : Rat) : Nat :=
  field 16 (lrint (rd ((if 65135 < x then 65135 else if x < -400 then -400 else x) - (-400))))

/-- wireFormat.c 588-599: `setPositionUpdateSpeed`; the getter (575-578) returns the field. -/
def setSpeed (x : Rat) : Nat :=
  field 12 (lrint (if x < 0 then 0 else if 4095 < x then 4095 else x))

/-- wireFormat.c 623-626: `setPositionUpdateTrack`; the getter (610-613) returns the field. -/
def setTrack (x : Rat) : Nat := field 9 (lrint x)

/-- wireFormat.h 166-169: the constants of the HDOP. -/
def hdopRes (rd : Rat → Rat) : Rat := rd (1 / 10)
def hdopMax (rd : Rat → Rat) : Rat := rd (2047 * hdopRes rd)

/-- wireFormat.c 637-640: `getPositionUpdateHdop`. -/
def getHdop (rd : Rat → Rat) (n : Nat) : Rat := rd ((n : Rat) * hdopRes rd)

/-- wireFormat.c 650-659: `setPositionUpdateHdop`. -/
def setHdop (rd : Rat → Rat) (x : Rat) : Nat :=
  field 11 (lrint (rd (clip (hdopMax rd) x / hdopRes rd)))

end Verif.PudPos
