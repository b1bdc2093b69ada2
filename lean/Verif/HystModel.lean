import Verif.SchedTimeModel

/-
Model of the link hysteresis: `src/hysteresis.c`, its callers in `src/link_set.c` (`add_link_entry`
584-594, `olsr_expire_link_hello_timer` 466-489, `update_link_entry` 734-736, `lookup_link_status`
134-162) and `src/parser.c` (306-309).

The quality is a value of any type `Q` (a `float` in the code): the calculations and the comparisons
with the thresholds are parameters.  The timers that call the functions are not modelled; every call
is an event with its time.
-/

namespace Verif.Hyst
open Verif.SchedTime

/-- `olsr_hyst_calc_stability` and `olsr_hyst_calc_instability` (hysteresis.c:61-71), and the
comparisons `> thr_high` and `< thr_low` (hysteresis.c:77, 96, 178). -/
structure Par (Q : Type) where
  stab : Q → Q
  inst : Q → Q
  hi : Q → Bool
  lo : Q → Bool

/-- The fields of `struct link_entry` for the hysteresis (link_set.h:76-83). -/
structure Link (Q : Type) where
  q : Q
  pending : Bool
  lost : Nat
  seq : Nat
  valid : Bool
deriving DecidableEq, Repr

/-- A new link (link_set.c:585-594); `zero` is the quality 0.0. -/
def new {Q : Type} (zero : Q) (now vtime : Nat) : Link Q :=
  ⟨zero, true, getTimestamp now vtime, 0, false⟩

/-- `olsr_process_hysteresis` (hysteresis.c:73-127); `clock` is the time of `link_timer`.
`NEIGHB_HOLD_TIME` is 20 seconds (olsr_protocol.h:87). -/
def process {Q : Type} (p : Par Q) (now clock : Nat) (l : Link Q) : Link Q :=
  if p.hi l.q then { l with pending := false, lost := (now + 4294967295) % 4294967296 }
  else if p.lo l.q then { l with pending := true, lost := min (getTimestamp now 20000) clock }
  else l

/-- The loop of hysteresis.c:173-182, at most `n` rounds. -/
def losses {Q : Type} (p : Par Q) (seqno : Nat) : Nat → Q → Nat → Q
  | 0, q, _ => q
  | n + 1, q, s =>
    if s = seqno then q
    else if p.lo (p.inst q) then p.inst q
    else losses p seqno n (p.inst q) ((s + 1) % 65536)

/-- `update_hysteresis_incoming` (hysteresis.c:150-190) for a known link.  The loop runs fewer than
100 rounds. -/
def incoming {Q : Type} (p : Par Q) (seqno : Nat) (l : Link Q) : Link Q :=
  { l with
    q := if l.valid ∧ (seqno + 65536 - l.seq) % 65536 < 100 then losses p seqno 100 (p.stab l.q) l.seq
      else p.stab l.q
    seq := (seqno + 1) % 65536
    valid := true }

/-- `olsr_expire_link_hello_timer` (link_set.c:466-489). -/
def helloTimeout {Q : Type} (p : Par Q) (now clock : Nat) (l : Link Q) : Link Q :=
  let l1 := process p now clock { l with q := p.inst l.q }
  { l1 with seq := (l1.seq + 1) % 65536 }

/-- What `lookup_link_status` returns for the hysteresis (link_set.c:134-162). -/
inductive Status where
  | lost
  | hide
  | asWithout
deriving DecidableEq, Repr

/-- `lookup_link_status` (link_set.c:134-162). -/
def status {Q : Type} (now : Nat) (l : Link Q) : Status :=
  if !isTimedOut now l.lost then .lost else if l.pending then .hide else .asWithout

/-- The events of a link: a packet arrives, a HELLO is processed, the HELLO timer fires.  `life` is
the time until `link_timer` fires. -/
inductive Ev where
  | packet (seqno : Nat)
  | hello (life : Nat)
  | timeout (life : Nat)
deriving DecidableEq, Repr

/-- One event at the time `t` (milliseconds since olsrd was started; `now_times` is this modulo
2^32). -/
def step {Q : Type} (p : Par Q) (l : Link Q) (t : Nat) : Ev → Link Q
  | .packet s => incoming p s l
  | .hello life => process p (t % W) (getTimestamp (t % W) life) l
  | .timeout life => helloTimeout p (t % W) (getTimestamp (t % W) life) l

/-- A sequence of events with their times. -/
def run {Q : Type} (p : Par Q) : Link Q → List (Nat × Ev) → Link Q
  | l, [] => l
  | l, e :: r => run p (step p l e.1 e.2) r

end Verif.Hyst
