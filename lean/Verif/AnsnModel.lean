import Verif.HelloModel
import Verif.SchedTimeModel

/-!
# MPR selectors, the advertised neighbours and their sequence number

`mpr_selector_set.c`, `lookup_mpr_status` (process_package.c), the choice of the advertised neighbours (`create_lq_tc` in lq_packet.c,
`olsr_build_tc_packet` in packet.c), the flag `link_changes` and the sequence number ANSN (scheduler.c), and the sending of empty TC messages.

Addresses are numbers.  Neighbours are a list (the hash table only matters for the order).  Allocation succeeds.
-/
namespace Verif.Ansn

open Verif.SchedTime

/-- `lookup_mpr_status` (process_package.c 296-317): the first entry of the interface address `me` with a specified link
type decides.  `SYM_LINK` is 2 (olsr_protocol.h 109), `MPR_NEIGH` 2 (olsr_protocol.h 142). -/
def mprStatus (me : List Nat) (ns : List Hello.Nb) : Bool :=
  match ns.find? (fun n => n.link != 0 && n.addr == me) with
  | some n => n.link == 2 && n.status == 2
  | none => false

/-- A neighbour: main address, `status == SYM`, `is_mpr`, and the cost of `get_best_link_to_neighbor` (`none`: no link). -/
structure Nbr where
  addr : Nat
  sym : Bool
  mpr : Bool
  cost : Option Nat
  deriving DecidableEq, Repr

/-- `tc_redundancy`, whether link quality is used, `mprs_list` (main address and time of the timer), neighbours, `link_changes`,
`ansn`. -/
structure St where
  red : Nat
  lq : Bool
  sels : List (Nat × Option Nat)
  nbrs : List Nbr
  flag : Bool
  ansn : Nat
  deriving DecidableEq, Repr

/-- What happens. -/
inductive Ev where
  | select (a now rel : Nat)
  | expire (a : Nat)
  | newNbr (a : Nat)
  | delNbr (a : Nat)
  | status (a : Nat) (sym : Bool)
  | mprs (new : Nat → Bool)
  | cost (a : Nat) (c : Option Nat) (relevant : Bool)
  | tick

/-- `olsr_lookup_mprs_set` (mpr_selector_set.c 171-189). -/
def isSel (s : St) (a : Nat) : Bool := s.sels.any (fun x => x.1 == a)

/-- The timer set by `olsr_set_mpr_sel_timer` (mpr_selector_set.c 129-134, `olsr_set_timer` in scheduler.c 1053-1073): `rel` is the time after
jitter; none is running after a time of 0. -/
def timer (now rel : Nat) : Option Nat := if rel = 0 then none else some (now + rel)

/-- `olsr_update_mprs_set` (mpr_selector_set.c 200-219): refresh the first entry with the address. -/
def refresh (a now rel : Nat) : List (Nat × Option Nat) → List (Nat × Option Nat)
  | [] => []
  | x :: l => if x.1 = a then (x.1, timer now rel) :: l else x :: refresh a now rel l

/-- The expiry of a timer (mpr_selector_set.c 101-122), which belongs to one entry. -/
def remove (a : Nat) : List (Nat × Option Nat) → List (Nat × Option Nat)
  | [] => []
  | x :: l => if x.1 = a then l else x :: remove a l

/-- `BROKEN` is `LINK_COST_BROKEN` (lq_plugin.h 56). -/
def BROKEN : Nat := 4194304

/-- Whether `create_lq_tc` (lq_packet.c 225-263) or `olsr_build_tc_packet` (packet.c 338-386) takes a neighbour into the message. -/
def advertise (s : St) (n : Nbr) : Bool :=
  n.sym &&
    (if s.lq then
      !(s.red == 1 && !n.mpr && !isSel s n.addr) && !(s.red == 0 && !isSel s n.addr) && n.cost.any (fun c => decide (c < BROKEN))
     else if s.red = 2 then true
     else if s.red = 1 then n.mpr || isSel s n.addr
     else isSel s n.addr)

/-- The neighbours advertised by a TC message generated now. -/
def advertised (s : St) : List Nat := (s.nbrs.filter (advertise s)).map Nbr.addr

/-- Change one neighbour. -/
def modify (a : Nat) (f : Nbr → Nbr) (l : List Nbr) : List Nbr := l.map (fun n => if n.addr = a then f n else n)

/-- `select`: a HELLO whose sender chose this host (process_package.c 530-533).  `expire`: its timer.  `newNbr`: `olsr_insert_neighbor_table`
(neighbor_table.c 235-270).  `delNbr`: `olsr_delete_neighbor_table` (neighbor_table.c 180-228).  `status`: `update_neighbor_status`
(neighbor_table.c 320-357).  `mprs`: the MPR calculation, whose signals are those of C51 (lq_mpr.c 171-172: a neighbour that is one now
and was not; mpr.c 449-454: one that was and is not).  `cost`: a change of the best link to a neighbour, signalled when the link-quality plug-in finds it
relevant (lq_plugin.c 516-522).  `tick`: the end of a round of the main loop (scheduler.c 574-578). -/
def step (s : St) : Ev → St
  | .select a now rel =>
    if isSel s a then { s with sels := refresh a now rel s.sels }
    else { s with sels := (a, timer now rel) :: s.sels, flag := true }
  | .expire a => if isSel s a then { s with sels := remove a s.sels, flag := true } else s
  | .newNbr a =>
    if s.nbrs.any (fun n => n.addr == a) then s
    else { s with nbrs := { addr := a, sym := false, mpr := false, cost := none } :: s.nbrs }
  | .delNbr a =>
    if s.nbrs.any (fun n => n.addr == a) then { s with nbrs := s.nbrs.filter (fun n => n.addr != a), flag := true } else s
  | .status a v =>
    { s with
      nbrs := modify a (fun n => { n with sym := v }) s.nbrs
      flag := s.flag || (decide (1 < s.red) && s.nbrs.any (fun n => n.addr == a && n.sym != v)) }
  | .mprs new =>
    { s with
      nbrs := s.nbrs.map (fun n => { n with mpr := new n.addr })
      flag := s.flag || (decide (0 < s.red) &&
        s.nbrs.any (fun n => if s.lq then new n.addr && !n.mpr else n.mpr && !new n.addr)) }
  | .cost a c relevant => { s with nbrs := modify a (fun n => { n with cost := c }) s.nbrs, flag := s.flag || relevant }
  | .tick => if s.flag then { s with ansn := (s.ansn + 1) % 65536, flag := false } else s

/-- A sequence of events. -/
def run (s : St) (es : List Ev) : St := es.foldl step s

/-- `olsr_init_mprs_set` (mpr_selector_set.c 62-72). -/
def start (red : Nat) (lq : Bool) : St := { red := red, lq := lq, sels := [], nbrs := [], flag := false, ansn := 0 }

/-! ## Empty TC messages -/

/-- `prev_empty` (lq_packet.c 682) or `!sending_tc` (packet.c 57), and `send_empty_tc` (build_msg.c 75). -/
structure Emp where
  empty : Bool
  timer : Nat
  deriving DecidableEq, Repr

/-- `olsr_output_lq_tc` (lq_packet.c 695-716) at the time `now`; `hold` is `max_tc_vtime * 3 * MSEC_PER_SEC`, where `max_tc_vtime` is the
greatest TC *emission interval* of the interfaces (unix/ifnet.c 482-483, 842-843).  Whether a message is sent. -/
def outputLq (hold now : Nat) (e : Emp) (nonempty : Bool) : Emp × Bool :=
  if nonempty then ({ e with empty := false }, true)
  else if e.empty = false then ({ empty := true, timer := getTimestamp now hold }, true)
  else (e, !isTimedOut now e.timer)

/-- The same for messages without link quality: `olsr_build_tc_packet` (packet.c 389-398) and `serialize_tc4` / `serialize_tc6` (build_msg.c 655-677,
767-785). -/
def outputTc (hold now : Nat) (e : Emp) (nonempty : Bool) : Emp × Bool :=
  if nonempty then ({ e with empty := false }, true)
  else if e.empty = false then
    ({ empty := true, timer := getTimestamp now hold }, !isTimedOut now (getTimestamp now hold))
  else (e, !isTimedOut now e.timer)

/-- `main` (main.c 606), before anything is sent: the timer is due at once. -/
def startEmp (now : Nat) : Emp := { empty := true, timer := getTimestamp now 0 }

end Verif.Ansn
