import Verif.SchedTimeModel

/-!
# Model of the timestamp negotiation of the secure plug-in

`lib/secure/src/olsrd_secure.c:260-284, 487-1107`.  The messages are modelled by their fields; whether
the signature over message and key is right is the field `mac`, the digest over a
challenge and an address (`res_sig`) is a parameter `R`.  The hash table is one list: a
chain is searched for the exact address, and equal addresses have equal hash values; new entries go
to the front.  Sending succeeds.  Memory from `malloc` holds arbitrary values
(`Junk`); fields that are not assigned keep them.  IPv4.
-/

namespace Verif.SecAuth

open Verif.SchedTime

/-- `struct stamp` (olsrd_secure.c:126-136); `validated` is a `uint8_t` only tested
against zero -/
structure Entry where
  addr : Nat
  diff : Int
  challenge : Nat
  validated : Bool
  valtime : Nat
  conftime : Nat
deriving DecidableEq, Repr

/-- what `malloc` returns -/
structure Junk where
  diff : Int
  challenge : Nat
  validated : Bool
  valtime : Nat
  conftime : Nat
deriving DecidableEq, Repr

/-- a node: `olsr_cnf->main_addr` and `if_ifwithaddr(..) != NULL` -/
structure Node where
  main : Nat
  own : Nat → Bool

/-- the table and the static variable `now` (its `tv_sec`, initially zero) -/
structure State where
  table : List Entry
  now : Int
deriving DecidableEq, Repr

/-- the state after `secure_plugin_init` (olsrd_secure.c:172-209) -/
def init : State := ⟨[], 0⟩

/-- a challenge/response message at the start of a packet (secure_messages.h:118-167) -/
inductive Auth where
  | challenge (orig dest chal : Nat) (mac : Bool)
  | cres (orig dest chal ts res : Nat) (mac : Bool)
  | rres (orig dest ts res : Nat) (mac : Bool)
deriving DecidableEq, Repr

/-- `lookup_timestamp_entry` (olsrd_secure.c:1047-1066) -/
def lookup (t : List Entry) (a : Nat) : Option Entry := t.find? (fun e => e.addr == a)

/-- assignment to the fields of the entry that `lookup` finds -/
def update (t : List Entry) (a : Nat) (f : Entry → Entry) : List Entry :=
  match t with
  | [] => []
  | e :: es => if e.addr == a then f e :: es else e :: update es a f

/-- conversion of a 64-bit value to `int` -/
def toInt (x : Int) : Int := (x + 2147483648) % 4294967296 - 2147483648

/-- `EXCHANGE_HOLD_TIME * 1000` -/
def exchangeHold : Nat := 5000

/-- `TIMESTAMP_HOLD_TIME * 1000` -/
def stampHold : Nat := 30000

/-- `send_challenge` (olsrd_secure.c:537-611): the message that is sent and the new entry.
`valtime` is not assigned. -/
def sendChallenge (n : Node) (T : Nat) (to_ rnd : Nat) (g : Junk) (t : List Entry) : List Entry × List Auth :=
  (⟨to_, 0, rnd, false, g.valtime, getTimestamp T exchangeHold⟩ :: t, [.challenge n.main to_ rnd true])

/-- `check_timestamp` (olsrd_secure.c:487-527): new table, messages sent, answer.  The
differences are in `time_t` (64 bits) and then converted to `int`. -/
def checkTimestamp (n : Node) (s : State) (T : Nat) (orig ts rnd : Nat) (g : Junk) : List Entry × List Auth × Bool :=
  match lookup s.table orig with
  | none => ((sendChallenge n T orig rnd g s.table).1, (sendChallenge n T orig rnd g s.table).2, false)
  | some e =>
    if !e.validated then (s.table, [], false)
    else if toInt (e.diff - (s.now - ts)) > 3 ∨ toInt (e.diff - (s.now - ts)) < -3 then (s.table, [], false)
    else
      (update s.table orig (fun e => ⟨e.addr, toInt (((s.now - ts) + e.diff).tdiv 2), e.challenge, e.validated,
        getTimestamp T stampHold, e.conftime⟩), [], true)

/-- `parse_challenge` (olsrd_secure.c:808-887) with `send_cres` (:894-970).  The entry is made
before the signature is checked, and none of its fields but the address is assigned. -/
def parseChallenge (n : Node) (R : Nat → Nat → Nat) (s : State) (T : Nat) (orig dest chal : Nat) (mac : Bool)
    (rnd : Nat) (g : Junk) : List Entry × List Auth :=
  if !n.own dest then (s.table, [])
  else
    match lookup s.table orig with
    | none =>
      if !mac then (⟨orig, g.diff, g.challenge, g.validated, g.valtime, g.conftime⟩ :: s.table, [])
      else (⟨orig, 0, rnd, false, g.valtime, getTimestamp T exchangeHold⟩ :: s.table,
        [.cres n.main orig rnd (s.now.toNat % 4294967296) (R chal dest) true])
    | some e =>
      if !isTimedOut T e.conftime then (s.table, [])
      else if !mac then (s.table, [])
      else (update s.table orig (fun e => ⟨e.addr, 0, rnd, false, e.valtime, getTimestamp T exchangeHold⟩),
        [.cres n.main orig rnd (s.now.toNat % 4294967296) (R chal dest) true])

/-- the end of `parse_cres` and `parse_rres` (olsrd_secure.c:690-699, :789-800): the entry becomes
valid, its challenge is cleared, its time difference is the measured one -/
def register (s : State) (T : Nat) (orig ts : Nat) : List Entry :=
  update s.table orig (fun e => ⟨e.addr, toInt (s.now - ts), 0, true, getTimestamp T stampHold, e.conftime⟩)

/-- `parse_cres` (olsrd_secure.c:613-714) with `send_rres` (:977-1045) -/
def parseCres (n : Node) (R : Nat → Nat → Nat) (s : State) (T : Nat) (orig dest chal ts res : Nat) (mac : Bool) :
    List Entry × List Auth :=
  if !n.own dest then (s.table, [])
  else if !mac then (s.table, [])
  else
    match lookup s.table orig with
    | none => (s.table, [])
    | some e =>
      if res ≠ R e.challenge orig then (s.table, [])
      else (register s T orig ts, [.rres n.main orig (s.now.toNat % 4294967296) (R chal dest) true])

/-- `parse_rres` (olsrd_secure.c:716-806) -/
def parseRres (n : Node) (R : Nat → Nat → Nat) (s : State) (T : Nat) (orig dest ts res : Nat) (mac : Bool) :
    List Entry :=
  if !n.own dest then s.table
  else if !mac then s.table
  else
    match lookup s.table orig with
    | none => s.table
    | some e => if res ≠ R e.challenge orig then s.table else register s T orig ts

/-- `check_auth` (olsrd_secure.c:260-284) -/
def checkAuth (n : Node) (R : Nat → Nat → Nat) (s : State) (T : Nat) (rnd : Nat) (g : Junk) :
    Option Auth → List Entry × List Auth
  | none => (s.table, [])
  | some (.challenge o d c m) => parseChallenge n R s T o d c m rnd g
  | some (.cres o d c ts r m) => parseCres n R s T o d c ts r m
  | some (.rres o d ts r m) => (parseRres n R s T o d ts r m, [])

/-- `timeout_timestamps` (olsrd_secure.c:1073-1107) -/
def timeout (T : Nat) (sec : Int) (s : State) : State :=
  ⟨s.table.filter (fun e => !(isTimedOut T e.valtime && isTimedOut T e.conftime)), sec⟩

/-- What happens to a node.  `recv`: a packet arrives, perhaps with a challenge/response
message, and with a signature message that has originator and timestamp, or `none` if
`validate_packet` finds it malformed or its digest wrong (model in `SecSigModel`). -/
inductive Ev where
  | tick (T : Nat) (sec : Int)
  | recv (T : Nat) (auth : Option Auth) (sig : Option (Nat × Nat)) (rnd1 rnd2 : Nat) (g1 g2 : Junk)
deriving DecidableEq, Repr

/-- one event: new state, messages sent, and whether the packet is accepted
(`secure_preprocessor`, olsrd_secure.c:226-251) -/
def step (n : Node) (R : Nat → Nat → Nat) (s : State) : Ev → State × List Auth × Bool
  | .tick T sec => (timeout T sec s, [], false)
  | .recv T auth sig rnd1 rnd2 g1 g2 =>
    let a := checkAuth n R s T rnd1 g1 auth
    match sig with
    | none => (⟨a.1, s.now⟩, a.2, false)
    | some (orig, ts) =>
      let c := checkTimestamp n ⟨a.1, s.now⟩ T orig ts rnd2 g2
      (⟨c.1, s.now⟩, a.2 ++ c.2.1, c.2.2)

/-- the state after a sequence of events, and all messages sent -/
def run (n : Node) (R : Nat → Nat → Nat) : State → List Ev → State × List Auth
  | s, [] => (s, [])
  | s, e :: es =>
    let r := step n R s e
    let q := run n R r.1 es
    (q.1, r.2.1 ++ q.2)

end Verif.SecAuth
