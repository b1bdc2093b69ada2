import Verif.SeqnoModel
import Verif.SchedTimeModel

/-!
# Model of `src/duplicate_set.c`

The AVL tree `duplicate_set` keyed by originator address is modelled as a
function from addresses (abstracted to `Nat`) to optional entries; the tree
itself is the subject of C29.  `mid_lookup_main_addr` (:139-142) only feeds a
debug message and is left out; `olsr_malloc` never returns NULL.
-/

namespace Verif.Dup

open Verif.Seqno Verif.SchedTime

/-- `struct dup_entry` (duplicate_set.h:59-66) without the tree node and the key -/
structure Entry where
  seqnr : Nat               -- uint16_t
  tooLow : Nat              -- uint16_t too_low_counter
  array : BitVec 32
  validUntil : Nat          -- uint32_t
deriving DecidableEq

/-- the duplicate set -/
abbrev State := Nat → Option Entry

def State.empty : State := fun _ => none

def State.set (st : State) (o : Nat) (e : Option Entry) : State := fun o' => if o' = o then e else st o'

/-- `DUPLICATE_VTIME` (duplicate_set.h:56) -/
abbrev vtime : Nat := 120000
/-- `DUP_MAX_TOO_LOW` (duplicate_set.h:57) -/
abbrev maxTooLow : Nat := 16

/-- `olsr_create_duplicate_entry` (duplicate_set.c:77-90) followed by the `valid_until`
assignment at :149-151 -/
def createEntry (seq validUntil : Nat) : Entry := { seqnr := seq, tooLow := 0, array := 0#32, validUntil }

/-- "update timestamp" (duplicate_set.c:157-160) -/
def touch (e : Entry) (validUntil : Nat) : Entry :=
  { e with validUntil := if validUntil > e.validUntil then validUntil else e.validUntil }

/-- the decision on a known originator's entry (duplicate_set.c:162-196);
result: (is duplicate, new entry) -/
def decideEntry (e : Entry) (seq : Nat) : Bool × Entry :=
  let d := diff seq e.seqnr                                               -- :162
  if d < -31 then
    let e := { e with tooLow := (e.tooLow + 1) % 65536 }                  -- :164
    if e.tooLow > maxTooLow then
      (false, { e with tooLow := 0, seqnr := seq, array := 1#32 })        -- :167-172
    else (true, e)                                                        -- :173-174
  else
    let e := { e with tooLow := 0 }                                       -- :177
    if d ≤ 0 then
      let bit := (-d).toNat                                               -- :179 `1u << -diff`, -diff ≤ 31
      if e.array.getLsbD bit then (true, e)                               -- :181-184
      else (false, { e with array := e.array ||| (1#32 <<< bit) })        -- :185-187
    else
      let a : BitVec 32 := if d < 32 then e.array.shiftLeft d.toNat else 0#32   -- :188-192
      (false, { e with array := a ||| 1#32, seqnr := seq })               -- :193-196

/-- body of `olsr_message_is_duplicate` for one originator's (possibly missing) entry
(duplicate_set.c:144-197) -/
def entryStep (e? : Option Entry) (seq now : Nat) : Bool × Entry :=
  match e? with
  | none => (false, createEntry seq (getTimestamp now vtime))              -- :147-154
  | some e0 => decideEntry (touch e0 (getTimestamp now vtime)) seq         -- :144, :157-196

/-- `olsr_message_is_duplicate` (duplicate_set.c:119-197) -/
def isDuplicate (st : State) (o seq now : Nat) : Bool × State :=
  let r := entryStep (st o) seq now
  (r.1, st.set o (some r.2))

/-- `olsr_cleanup_duplicate_entry` (duplicate_set.c:92-104), the periodic cleanup timer -/
def cleanup (st : State) (now : Nat) : State := fun o =>
  match st o with
  | some e => if isTimedOut now e.validUntil then none else some e
  | none => none

/-- `olsr_cleanup_duplicates` (duplicate_set.c:68-75), called when an empty TC arrives -/
def resync (st : State) (o : Nat) : State := fun o' =>
  if o' = o then (st o).map (fun e => { e with tooLow := maxTooLow - 2 }) else st o'

/-- the operations performed on the duplicate set; `now` is `now_times` -/
inductive Op where
  | msg (o seq now : Nat)
  | cleanup (now : Nat)
  | resync (o : Nat)

/-- one operation; the output is the verdict for a message -/
def step (st : State) : Op → State × Option Bool
  | .msg o s now => let r := isDuplicate st o s now; (r.2, some r.1)
  | .cleanup now => (cleanup st now, none)
  | .resync o => (resync st o, none)

def run (st : State) (ops : List Op) : State := ops.foldl (fun st op => (step st op).1) st

end Verif.Dup
