/-
Model of how an info plugin sends its replies (`lib/info/olsrd_info.c` 343-418,
575-609, 891-896, 1102-1105).

Bytes are numbers.  A connection is named by a number which is never used again
(in reality the number of a socket may be used again after it was closed).
`socket[i] < 0` and `buffer[i] == NULL` hold for the same slots: both are set
and cleared together, so a slot is an `Option`.
-/
namespace Verif.InfoOut

/-- Data. -/
abbrev Bytes := List Nat

/-- A used slot of `info_plugin_outbuffer_t` (olsrd_info.c 77-83); `size` is the
length of `data`. -/
structure Slot where
  sock : Nat
  data : Bytes
  written : Nat
deriving DecidableEq

/-- What happens on a connection: bytes sent, an error of `send`, the close, or
the refusal by `send_status_no_retries`. -/
inductive Ev where
  | sent (sock : Nat) (b : Bytes)
  | failed (sock : Nat)
  | closed (sock : Nat)
  | refused (sock : Nat)
deriving DecidableEq

/-- `outbuffer`, `writetimer_entry` and what happened so far. -/
structure St where
  slots : List (Option Slot)
  count : Int
  timer : Bool
  log : List Ev

/-- The number of slots (olsrd_info.c 62). -/
def maxClients : Nat := 8

/-- After `olsrd_plugin_init` (olsrd_info.c 1102-1105). -/
def init : St := { slots := List.replicate maxClients none, count := 0, timer := false, log := [] }

/-- What `send` does: it takes up to that many bytes, would block, or fails. -/
inductive Snd where
  | bytes (n : Nat)
  | again
  | fail

/-- One round of the loop of `write_data` (olsrd_info.c 378-411) for slot `i`. -/
def stepSlot (o : Snd) (st : St) (i : Nat) : St :=
  match st.slots[i]? with
  | some (some s) =>
    match o with
    | .again => st
    | .fail =>
      { st with
        slots := st.slots.set i none, count := st.count - 1,
        log := st.log ++ [.failed s.sock, .closed s.sock] }
    | .bytes n =>
      if s.data.length ≤ s.written + min n (s.data.length - s.written) then
        { st with
          slots := st.slots.set i none, count := st.count - 1,
          log := st.log ++ [.sent s.sock ((s.data.drop s.written).take n), .closed s.sock] }
      else
        { st with
          slots := st.slots.set i (some { s with written := s.written + min n (s.data.length - s.written) }),
          log := st.log ++ [.sent s.sock ((s.data.drop s.written).take n)] }
  | _ => st

/-- The end of `write_data`: without replies the timer stops (olsrd_info.c
414-417). -/
def stopTimer (st : St) : St := if st.count = 0 then { st with timer := false } else st

/-- `write_data` (olsrd_info.c 343-418): `ready` is whether `select` finds a
connection which takes data, `outs` is what `send` does for each slot. -/
def writeData (ready : Bool) (outs : Nat → Snd) (st : St) : St :=
  if st.count ≤ 0 then st
  else if !ready then st
  else stopTimer ((List.range maxClients).foldl (fun st i => stepSlot (outs i) st i) st)

/-- The search for a slot from the end (olsrd_info.c 581-587): the slot among
the first `n`, if one is free. -/
def lastFree (slots : List (Option Slot)) : Nat → Option Nat
  | 0 => none
  | n + 1 => if slots[n]? = some none then some n else lastFree slots n

/-- Whether slot `i` is used. -/
def used (slots : List (Option Slot)) (i : Nat) : Bool :=
  match slots[i]? with
  | some (some _) => true
  | _ => false

/-- The end of `send_info` (olsrd_info.c 606-608). -/
def startTimer (first : Bool) (i : Nat) (st : St) : St :=
  if first && used st.slots i then { st with timer := true } else st

/-- The last part of `send_info` (olsrd_info.c 575-609).  `none`: an assertion
fails. -/
def sendInfo (sock : Nat) (data : Bytes) (ready : Bool) (outs : Nat → Snd) (st : St) : Option St :=
  match lastFree st.slots maxClients with
  | none => none
  | some i =>
    some (startTimer (decide (st.count = 0)) i (writeData ready outs
      { st with
        slots := st.slots.set i (some { sock := sock, data := data, written := 0 })
        count := st.count + 1 }))

/-- What happens: a connection whose reply is `data`, or 10 milliseconds pass. -/
inductive Op where
  | request (sock : Nat) (data : Bytes) (ready : Bool) (outs : Nat → Snd)
  | tick (ready : Bool) (outs : Nat → Snd)

/-- A request is refused when all slots are used (olsrd_info.c 891-896, also 825
and 839); the timer calls `write_data`. -/
def step (st : St) : Op → Option St
  | .request k d r o =>
    if (maxClients : Int) ≤ st.count then some { st with log := st.log ++ [.refused k] }
    else sendInfo k d r o st
  | .tick r o => if st.timer then some (writeData r o st) else some st

/-- A sequence of events. -/
def run : List Op → St → Option St
  | [], st => some st
  | o :: os, st =>
    match step st o with
    | some st' => run os st'
    | none => none

end Verif.InfoOut
