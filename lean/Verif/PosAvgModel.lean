/-!
# Model of `lib/pud/src/posAvg.c`

The list of the last positions and their average.  Numbers are exact (`Int`) in place of `double`, so the errors of rounding that
adding and subtracting leave in the sums are not modelled; nor are the
functions between an angle and its components.  A failed `assert` and an access outside of the memory are `none`.

The flags of an entry are numbered: 0-21 are the bits of `present` in the order of `updateCounters` (posAvg.c 222-310;
3 is SIG, 4 is FIX, 19-21 are HEIGHT, DGPSAGE and DGPSSID), 22-26 are the five sentences of `smask` (312-332).  The values
are numbered: 0-6 are pdop, hdop, vdop, latitude, longitude, elevation and speed, 7-12 the
components of the three angles (posAvg.c 572-606).
-/

namespace Verif.PosAvg

/-- The values of `sig` that are told apart: `NMEALIB_SIG_SENSITIVE`, `_DIFFERENTIAL`, `_FIX`, others. -/
inductive Sig where
  | sensitive
  | differential
  | fix
  | other
deriving DecidableEq, Repr

/-- The values of `fix` that are told apart: `NMEALIB_FIX_3D`, `_2D`, others. -/
inductive Fix where
  | d3
  | d2
  | bad
deriving DecidableEq, Repr

/-- `PositionUpdateEntry` (posAvg.h 64-71); `rest` are height, dgpsAge and dgpsSid. -/
structure Ent where
  flag : Fin 27 → Bool
  val : Fin 13 → Int
  rest : Fin 3 → Int
  sig : Sig
  fix : Fix
  utc : Nat
  sats : Nat

/-- Memory that `olsr_malloc` has cleared, and `nmeaInfoClear` with the components set to 0 (posAvg.c 80-86); the time that is set
there is replaced with the next entry. -/
def blank : Ent := ⟨fun _ => false, fun _ => 0, fun _ => 0, .other, .bad, 0, 0⟩

/-- `PositionUpdateCounters` (posAvg.h 79-121). -/
structure Counters where
  flag : Fin 27 → Nat
  sigBad : Nat
  sigLow : Nat
  sigMid : Nat
  sigHigh : Nat
  fixBad : Nat
  fix2d : Nat
  fix3d : Nat

/-- All counters 0 (posAvg.c 77-78). -/
def zero : Counters := ⟨fun _ => 0, 0, 0, 0, 0, 0, 0, 0⟩

/-- `PositionAverageList` (posAvg.h 140-152); `divider` is the divider of the last average. -/
structure St where
  max : Nat
  entries : List Ent
  count : Nat
  newest : Nat
  counters : Counters
  cum : Ent
  avg : Ent
  divider : Nat

/-- `flushPositionAverageList` (posAvg.c 73-90). -/
def flush (s : St) : St := { s with count := 0, counters := zero, cum := blank, avg := blank }

/-- `initPositionAverageList` (posAvg.c 106-131) for a number of entries that fits into the memory. -/
def init (n : Nat) : Option St :=
  if n < 2 then none else some ⟨n, List.replicate (n + 1) blank, 0, 0, zero, blank, blank, 1⟩

/-- `INCOMINGINDEX` (posAvg.c 64). -/
def incoming (s : St) : Nat := (s.newest + 1) % (s.max + 1)

/-- `OLDESTINDEX` (posAvg.c 65). -/
def oldest (s : St) : Nat :=
  if s.count > 1 then (incoming s + (s.max + 1) - s.count) % (s.max + 1) else s.newest

/-- One counter with its `assert` (posAvg.c 222-363). -/
def bump (add : Bool) (max : Nat) (b : Bool) (c : Nat) : Option Nat :=
  if b = true then
    if add = true then (if c < max then some (c + 1) else none)
    else (if c > 0 then some (c - 1) else none)
  else some c

/-- The counter for the quality of the signal (posAvg.c 334-349). -/
def isSig (e : Ent) (v : Sig) : Bool := e.flag 3 && decide (e.sig = v)

/-- The counter for the fix (posAvg.c 351-363). -/
def isFix (e : Ent) (v : Fix) : Bool := e.flag 4 && decide (e.fix = v)

/-- `updateCounters` (posAvg.c 208-364). -/
def updateCounters (max : Nat) (c : Counters) (e : Ent) (add : Bool) : Option Counters :=
  if ∀ f, (bump add max (e.flag f) (c.flag f)).isSome = true then
    (bump add max (isSig e .other) c.sigBad).bind fun sb =>
    (bump add max (isSig e .fix) c.sigLow).bind fun sl =>
    (bump add max (isSig e .differential) c.sigMid).bind fun sm =>
    (bump add max (isSig e .sensitive) c.sigHigh).bind fun sh =>
    (bump add max (isFix e .bad) c.fixBad).bind fun fb =>
    (bump add max (isFix e .d2) c.fix2d).bind fun f2 =>
    (bump add max (isFix e .d3) c.fix3d).bind fun f3 =>
    some ⟨fun f => (bump add max (e.flag f) (c.flag f)).getD 0, sb, sl, sm, sh, fb, f2, f3⟩
  else none

/-- The quality of the signal (posAvg.c 479-491). -/
def sigOf (c : Counters) (n : Nat) : Sig :=
  if c.flag 3 ≥ n then
    if c.sigBad = 0 then
      if c.sigHigh ≥ n then .sensitive
      else if c.sigMid > 0 then .differential
      else if c.sigLow > 0 then .fix
      else .other
    else .other
  else .other

/-- The fix (posAvg.c 493-504). -/
def fixOf (c : Counters) (n : Nat) : Fix :=
  if c.flag 4 ≥ n then
    if c.fixBad = 0 then
      if c.fix3d ≥ n then .d3
      else if c.fix2d > 0 then .d2
      else .bad
    else .bad
  else .bad

/-- `determineCumulativePresentSmaskSigFix` (posAvg.c 376-505). -/
def determine (cum : Ent) (c : Counters) (n : Nat) : Ent :=
  { cum with flag := fun f => decide (c.flag f ≥ n), sig := sigOf c n, fix := fixOf c n }

/-- The sums (posAvg.c 551-606): time and satellites are those of an added entry. -/
def accumulate (cum e : Ent) (add : Bool) : Ent :=
  { cum with
    val := fun f => if add = true then cum.val f + e.val f else cum.val f - e.val f
    utc := if add = true then e.utc else cum.utc
    sats := if add = true then e.sats else cum.sats }

/-- `addOrRemoveEntryToFromCumulativeAverage` (posAvg.c 563-614). -/
def change (s : St) (e : Ent) (add : Bool) : Option St :=
  if (add = false ∧ s.count ≥ s.max) ∨ (add = true ∧ s.count < s.max) then
    (updateCounters s.max s.counters e add).bind fun c =>
      some { s with
        count := if add = true then s.count + 1 else s.count - 1
        counters := c
        cum := determine (accumulate s.cum e add) c (if add = true then s.count + 1 else s.count - 1) }
  else none

/-- The removal of the oldest entry from a full list (posAvg.c 676-682). -/
def makeRoom (s : St) : Option St :=
  if s.count ≥ s.max then
    match s.entries[oldest s]? with
    | none => none
    | some o => change s o false
  else some s

/-- `addNewPositionToAverage` (posAvg.c 671-699); the values of the average are those of `avg` divided by `divider`
(posAvg.c 625-660). -/
def addNew (s : St) : Option St :=
  match makeRoom s with
  | none => none
  | some s1 =>
    match s1.entries[incoming s1]? with
    | none => none
    | some e =>
      match change s1 e true with
      | none => none
      | some s2 => some { s2 with newest := incoming s2, avg := s2.cum, divider := if s2.count > 1 then s2.count else 1 }

/-- The receiver fills the incoming entry (receiver.c 466-473). -/
def write (s : St) (e : Ent) : Option St :=
  if incoming s < s.entries.length then some { s with entries := s.entries.set (incoming s) e } else none

/-- What the receiver does: fill the incoming entry and give up, or go on to add it, after flushing the list or not
(receiver.c 466-480, 902-906). -/
inductive Ev where
  | fill (e : Ent)
  | take (flushed : Bool) (e : Ent)

/-- One event. -/
def step (s : St) : Ev → Option St
  | .fill e => write s e
  | .take fl e => (write s e).bind fun s1 => addNew (if fl = true then flush s1 else s1)

/-- A series of events. -/
def run (s : St) : List Ev → Option St
  | [] => some s
  | e :: es => (step s e).bind fun s1 => run s1 es

end Verif.PosAvg
