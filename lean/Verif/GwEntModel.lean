import Verif.BuildMsgModel
import Verif.SeqnoModel
/-!
# Model of one entry of the gateway tree

`olsr_update_gateway_entry` (gateway.c 1243-1345), `olsr_delete_gateway_tree_entry` (1367-1483),
`expire_gateway_handler` and `cleanup_gateway_handler` (693-720), and their callers in `hna_set.c` (212-225,
436-479) and `tc_set.c` (289).

The entries of different originators do not influence each other, so the state is that of a single originator.

What is left out:
* the lists of active gateways, the tunnels and the current gateway (C32, C53, C54), the choice of a gateway
  (C34) and the cost (C33): the handlers called here read the tree but do not change it;
* of the HNA set (C87) only the networks of this originator that stand for the Internet are kept;
* time is a number of milliseconds that does not wrap (C07, C08), and a timer fires when it is due (the timers of
  the HNA set up to 5 percent earlier, which is left out).  Timers that
  are due at the same time fire in the order given in `tick`; any order leads to the same state.
-/
namespace Verif.GwEnt

open BuildMsg (GwInfo readGw isSmartGw isInetGw)

/-- A `struct timer_entry *`: NULL, a running timer, or the address of a timer that fired and was freed. -/
inductive Tm where
  | none
  | due (t : Nat)
  | stale
  deriving DecidableEq, Repr

/-- `struct gateway_entry` (gateway.h 107-121) without the cost. -/
structure Ent where
  seq : Nat
  info : GwInfo
  expire : Option Nat          -- expire_timer
  cleanup : Tm                 -- cleanup_timer
  deriving DecidableEq, Repr

/-- The clock, the entry, and the plain Internet routes of the originator in the HNA set with the times at which
they run out. -/
structure St where
  now : Nat
  ent : Option Ent
  plain : List ((List Nat × Nat) × Nat)
  deriving DecidableEq, Repr

/-- Before anything is received. -/
def init : St := ⟨0, none, []⟩

/-- `GW_CLEANUP_INTERVAL` (gateway.h 62). -/
def cleanupInterval : Nat := 30000

/-- `FORCE_DELETE_GW_ENTRY` (gateway.h 59). -/
def forced : Nat := 255

/-- A new entry is all zero (gateway.c 1250-1254, olsr_cookie.c 213-224). -/
def blank : Ent := ⟨0, ⟨0, 0, false, false, false, (List.replicate 8 0, 0)⟩, none, .none⟩

/-- `cleanup_gateway_handler` (gateway.c 707-720); `none`: the entry is freed. -/
def cleanupHandler (e : Ent) : Option Ent := if e.info.ipv4 || e.info.ipv6 then some e else none

/-- No way to be chosen (gateway.c 1406-1409). -/
def noFlags (i : GwInfo) : GwInfo := { i with ipv4 := false, nat := false, ipv6 := false }

/-- The flags taken away by a prefix length (gateway.c 1387-1400). -/
def takeFlags (v6 : Bool) (plen : Nat) (i : GwInfo) : GwInfo :=
  if v6 = false ∧ plen = 0 then { i with ipv4 := false, nat := false }
  else if v6 = true ∧ plen = 3 then { i with ipv6 := false }
  else if v6 = true ∧ plen = 96 then { i with ipv4 := false, nat := false }
  else i

/-- The last part of the deletion (gateway.c 1402-1468): `none` is undefined behaviour (a freed timer is used),
`some none` is a freed entry. -/
def finish (now plen : Nat) (imm : Bool) (e : Ent) : Option (Option Ent) :=
  if plen = forced ∨ (e.info.ipv4 || e.info.ipv6) = false then
    if imm then some (cleanupHandler { e with info := noFlags e.info })
    else if e.cleanup = .stale then none
    else some (some { e with info := noFlags e.info, cleanup := .due (now + cleanupInterval) })
  else some (some e)

/-- `olsr_delete_gateway_tree_entry` (gateway.c 1367-1483) on an existing entry. -/
def del (v6 : Bool) (now : Nat) (e : Ent) (plen : Nat) (imm : Bool) : Option (Option Ent) :=
  if imm then
    if e.cleanup = .stale then none
    else finish now plen true
      { e with expire := none, cleanup := .none, info := takeFlags v6 plen e.info }
  else if e.cleanup = .none ∨ (e.info.ipv4 || e.info.ipv6) = true then
    finish now plen false { e with expire := none, info := takeFlags v6 plen e.info }
  else some (some { e with expire := none })

/-- `olsr_delete_gateway_entry` (gateway.c 1355-1357). -/
def delEnt (v6 : Bool) (now : Nat) (e : Option Ent) (plen : Nat) (imm : Bool) : Option (Option Ent) :=
  match e with
  | none => some none
  | some e => del v6 now e plen imm

/-- `olsr_update_gateway_entry` (gateway.c 1257-1345) once the announcement is accepted. -/
def accept (v6 : Bool) (now : Nat) (e : Ent) (mask : List Nat) (seq vtime : Nat) : Option (Option Ent) :=
  let i := readGw v6 (Ipcalc.toPrefix mask) mask e.info.ext
  if i.up = 0 ∨ i.down = 0 then del v6 now { e with seq := seq, info := i } forced true
  else if e.cleanup = .stale then none
  else some (some { seq := seq, info := i, expire := some (now + vtime), cleanup := .none })

/-- `olsr_update_gateway_entry` (gateway.c 1243-1257). -/
def update (v6 : Bool) (now : Nat) (e : Option Ent) (mask : List Nat) (seq vtime : Nat) : Option (Option Ent) :=
  match e with
  | none => accept v6 now blank mask seq vtime
  | some e => if Seqno.diff seq e.seq ≤ 0 then some (some e) else accept v6 now e mask seq vtime

/-- `expire_gateway_handler` (gateway.c 693-700): the length given is that of the *external prefix*. -/
def fireExpire (v6 : Bool) (now : Nat) : Option Ent → Option (Option Ent)
  | none => some none
  | some e =>
    match e.expire with
    | none => some (some e)
    | some t => if t ≤ now then del v6 now e e.info.ext.2 false else some (some e)

/-- The cleanup timer: after the handler the scheduler frees the timer. -/
def fireCleanup (now : Nat) : Option Ent → Option Ent
  | none => none
  | some e =>
    match e.cleanup with
    | .due t => if t ≤ now then (cleanupHandler e).map (fun e => { e with cleanup := .stale }) else some e
    | _ => some e

/-- `olsr_delete_hna_net_entry` (hna_set.c 219-225) for networks of which `is_prefix_inetgw` holds. -/
def delPlain (v6 : Bool) (now : Nat) : List ((List Nat × Nat) × Nat) → Option Ent → Option (Option Ent)
  | [], e => some e
  | p :: l, e => (delEnt v6 now e p.1.2 false).bind (delPlain v6 now l)

/-- A millisecond passes. -/
def tick (v6 : Bool) (s : St) : Option St :=
  (fireExpire v6 (s.now + 1) s.ent).bind fun e =>
    (delPlain v6 (s.now + 1) (s.plain.filter (fun p => p.2 ≤ s.now + 1)) (fireCleanup (s.now + 1) e)).map fun e =>
      ⟨s.now + 1, e, s.plain.filter (fun p => ¬ p.2 ≤ s.now + 1)⟩

/-- `olsr_update_hna_entry` (hna_set.c 300-345): the timer of the network is set or changed. -/
def setPlain (p : List Nat × Nat) (t : Nat) (l : List ((List Nat × Nat) × Nat)) : List ((List Nat × Nat) × Nat) :=
  (p, t) :: l.filter (fun q => q.1 ≠ p)

/-- What can happen: a network in an HNA message of the originator, the removal of its topology entry, and the
passing of time. -/
inductive Ev where
  | net (addr mask : List Nat) (seq vtime : Nat)
  | lost
  | tick
  deriving DecidableEq, Repr

/-- One event; `none` is undefined behaviour.  The networks of an HNA message: hna_set.c 445-478 with an active
smart gateway, for an address that is not an own one; other networks do not matter here. -/
def step (v6 : Bool) (s : St) : Ev → Option St
  | .net addr mask seq vtime =>
    if isSmartGw v6 addr (Ipcalc.toPrefix mask) mask then
      (update v6 s.now s.ent mask seq vtime).map fun e => { s with ent := e }
    else if isInetGw v6 addr (Ipcalc.toPrefix mask) then
      some { s with plain := setPlain (addr, Ipcalc.toPrefix mask) (s.now + vtime) s.plain }
    else some s
  | .lost => (delEnt v6 s.now s.ent forced false).map fun e => { s with ent := e }
  | .tick => tick v6 s

def run (v6 : Bool) : List Ev → St → Option St
  | [], s => some s
  | ev :: l, s => (step v6 s ev).bind (run v6 l)

end Verif.GwEnt
