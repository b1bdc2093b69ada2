import Verif.PudStateModel

/-!
# Model of `detemineMovingFromPosition` (lib/pud/src/receiver.c 597-877)

Whether the averaged position has moved away from the one that was sent last.  Numbers are exact (`Int`) in place of
`double`.  The distance between the two positions on the ellipsoid is a parameter.  A value that is not
present is `none`; only its presence is used for latitude and longitude.
-/

namespace Verif.PudMove

open Verif.PudState (Tri)

/-- The parts of `nmeaInfo` that are used; `fix` is `none` if it is not present, otherwise whether it is not
`NMEALIB_FIX_BAD`. -/
structure Pos where
  fix : Option Bool
  lat : Bool
  lon : Bool
  speed : Option Int
  hdop : Option Int
  elv : Option Int
  vdop : Option Int
deriving DecidableEq, Repr

/-- The configuration (configuration.c 1180-1290). -/
structure Cfg where
  speedThr : Int
  distThr : Int
  mult : Int
  defHdop : Int
  defVdop : Int
deriving DecidableEq, Repr

/-- `MovementType` (receiver.c 75-90). -/
structure Res where
  moving : Tri
  overThresholds : Tri
  speedOver : Tri
  hOver : Tri
  vOver : Tri
  outside : Tri
  outsideH : Tri
  outsideV : Tri
  inside : Tri
  insideH : Tri
  insideV : Tri
deriving DecidableEq, Repr

/-- `clearMovementType` (receiver.c 137-150). -/
def clear : Res := ⟨.unknown, .unknown, .unknown, .unknown, .unknown, .unknown, .unknown, .unknown, .unknown, .unknown, .unknown⟩

/-- `positionValid` (receiver.c 162-165). -/
def valid (p : Pos) : Bool := decide (p.fix = some true)

/-- SET or UNSET. -/
def tri (b : Bool) : Tri := if b = true then .set else .unset

/-- The speed (receiver.c 741-748). -/
def doSpeed (c : Cfg) (avg : Pos) (r : Res) : Res :=
  match avg.speed with
  | none => r
  | some s => { r with speedOver := tri (decide (s ≥ c.speedThr)) }

/-- Latitude and longitude are present (receiver.c 669-670, 676-677). -/
def hasPos (p : Pos) : Bool := p.lat && p.lon

/-- The position (receiver.c 684-685, 693-717, 759-792), for the distance `d`. -/
def doPos (c : Cfg) (avg last : Pos) (d : Int) (r : Res) : Res :=
  if hasPos avg = true ∧ hasPos last = false then { r with hOver := .set }
  else if hasPos avg = true ∧ hasPos last = true then
    if avg.hdop.isSome = true ∨ last.hdop.isSome = true then
      { r with
        hOver := tri (decide (d ≥ c.distThr))
        outsideH := tri (decide (d > c.mult * (last.hdop.getD c.defHdop + avg.hdop.getD c.defHdop)))
        insideH := tri (decide (d ≤ c.mult * (last.hdop.getD c.defHdop - avg.hdop.getD c.defHdop))) }
    else { r with hOver := tri (decide (d ≥ c.distThr)) }
  else r

/-- The elevation, both present (receiver.c 686-687, 727-734, 805-836). -/
def doElv2 (c : Cfg) (avg last : Pos) (v : Int) (r : Res) : Res :=
  if avg.vdop.isSome = true ∨ last.vdop.isSome = true then
    { r with
      vOver := tri (decide (v ≥ c.distThr))
      outsideV := tri (decide (v > c.mult * (last.vdop.getD c.defVdop + avg.vdop.getD c.defVdop)))
      insideV := tri (decide (v ≤ c.mult * (last.vdop.getD c.defVdop - avg.vdop.getD c.defVdop))) }
  else { r with vOver := tri (decide (v ≥ c.distThr)) }

/-- The elevation (receiver.c 719-725, 803-836). -/
def doElv (c : Cfg) (avg last : Pos) (r : Res) : Res :=
  match avg.elv, last.elv with
  | some _, none => { r with vOver := .set }
  | some a, some l => doElv2 c avg last (if l - a < 0 then a - l else l - a) r
  | none, _ => r

/-- The inside criteria (receiver.c 842-847). -/
def accInside (r : Res) : Res :=
  if r.insideH = .set ∧ r.insideV = .set then { r with inside := .set }
  else if r.insideH = .unset ∨ r.insideV = .unset then { r with inside := .unset }
  else r

/-- The outside criteria (receiver.c 849-855). -/
def accOutside (r : Res) : Res :=
  if r.outsideH = .set ∨ r.outsideV = .set then { r with outside := .set }
  else if r.outsideH = .unset ∨ r.outsideV = .unset then { r with outside := .unset }
  else r

/-- The thresholds (receiver.c 857-866). -/
def accOver (r : Res) : Res :=
  if r.speedOver = .set ∨ r.hOver = .set ∨ r.vOver = .set then { r with overThresholds := .set }
  else if r.speedOver = .unset ∨ r.hOver = .unset ∨ r.vOver = .unset then { r with overThresholds := .unset }
  else r

/-- The movement (receiver.c 868-874). -/
def accMoving (r : Res) : Res :=
  if r.overThresholds = .set ∨ r.outside = .set then { r with moving := .set }
  else if r.overThresholds = .unset ∧ r.outside = .unset then { r with moving := .unset }
  else r

/-- `detemineMovingFromPosition` (receiver.c 610-877). -/
def determine (c : Cfg) (avg last : Pos) (d : Int) (r : Res) : Res :=
  if valid avg = false then { r with moving := .unknown }
  else if valid last = false then { r with moving := .unknown }
  else accMoving (accOver (accOutside (accInside (doElv c avg last (doPos c avg last d (doSpeed c avg r))))))

/-- The call (receiver.c 911-913). -/
def moved (c : Cfg) (avg last : Pos) (d : Int) : Res := determine c avg last d clear

/-- The position that is sent, after a new average (receiver.c 926-944); the track is not modelled.  `change` is
`subStateExternalStateChange`, `stationary` and `moving` tell `externalState`. -/
def sent (c : Cfg) (avg last : Pos) (d : Int) (change moving stationary : Bool) : Pos :=
  if moving = true ∨ change = true ∨ (valid avg = true ∧ valid last = false) ∨ (moved c avg last d).inside = .set then
    if stationary = true then { avg with speed := avg.speed.map (fun _ => 0) } else avg
  else last

end Verif.PudMove
