import Verif.IpcalcModel

/-!
# Model of `lib/dyn_gw/src/olsrd_dyn_gw.c` (IPv4)

Addresses and masks are lists of four bytes.  The routing table of the kernel is what the lines of
`/proc/net/route` say that `sscanf` reads in full; other lines are skipped (olsrd_dyn_gw.c 506-507).  The ping
thread is taken to do the checks of one group at once, between two runs of the timer function.  Left out: the
text of the ping command, failing allocations (which end the daemon), the gateway flags that
`ip_prefix_list_add` updates, and the end of the plugin.
-/

namespace Verif.DynGw

/-- A network: address and prefix length. -/
abbrev Net := List Nat × Nat

/-- `struct hna_list` (olsrd_dyn_gw.c 107-114). -/
structure Hn where
  net : Net
  added : Bool
  checked : Bool
  active : Bool
deriving DecidableEq, Repr

/-- `struct hna_group` (olsrd_dyn_gw.c 118-123). -/
structure Grp where
  hnas : List Hn
  pings : List (List Nat)
  probe : Bool
deriving DecidableEq, Repr

/-- `add_to_hna_list` (olsrd_dyn_gw.c 629-642): a new entry. -/
def mkHn (n : Net) : Hn := { net := n, added := false, checked := false, active := false }

/-- The parameters that build the groups: `ping` with an address that `inet_pton` reads, `hna` with address and
mask that it reads, one of them with something else. -/
inductive Param where
  | ping (a : List Nat)
  | hna (a m : List Nat)
  | bogus
deriving DecidableEq, Repr

/-- `set_plugin_ping` (olsrd_dyn_gw.c 149-173) and `set_plugin_hna` (175-213). -/
def setParam : List Grp → Param → List Grp
  | [], .ping a => [{ hnas := [], pings := [a], probe := false }]
  | g :: r, .ping a =>
    if g.hnas ≠ [] then { hnas := [], pings := [a], probe := false } :: g :: r else { g with pings := a :: g.pings } :: r
  | [], .hna a m => [{ hnas := [mkHn (a, Ipcalc.toPrefix m)], pings := [], probe := false }]
  | g :: r, .hna a m => { g with hnas := mkHn (a, Ipcalc.toPrefix m) :: g.hnas } :: r
  | gs, .bogus => gs

/-- `hna_ping_check` (olsrd_dyn_gw.c 125, 170). -/
def pingMode : List Param → Bool
  | [] => false
  | .ping _ :: _ => true
  | _ :: ps => pingMode ps

/-- The default gateway for a first group without networks (olsrd_dyn_gw.c 258-276). -/
def withDefault : List Grp → List Grp
  | [] => [{ hnas := [mkHn ([0, 0, 0, 0], 0)], pings := [], probe := false }]
  | g :: r => if g.hnas = [] then { g with hnas := [mkHn ([0, 0, 0, 0], 0)] } :: r else g :: r

/-- A line of the routing table. -/
structure Route where
  dest : List Nat
  mask : List Nat
  up : Bool
  metric : Int
deriving DecidableEq, Repr

/-- `olsr_prefix_to_netmask` (ipcalc.h 112-116) for IPv4. -/
def maskOf (plen : Nat) : List Nat := (Ipcalc.prefixToNetmask [0, 0, 0, 0] plen).2

/-- The inner loop of `find_hna` (olsrd_dyn_gw.c 420-425), and what is done with the entry found (:517-519). -/
def markHnas (r : Route) : List Hn → Option (List Hn)
  | [] => none
  | h :: hs =>
    if h.net.1 = r.dest ∧ maskOf h.net.2 = r.mask then some ({ h with checked := true } :: hs)
    else (markHnas r hs).map (fun x => h :: x)

/-- The outer loop of `find_hna` (olsrd_dyn_gw.c 419). -/
def markGroups (r : Route) : List Grp → List Grp
  | [] => []
  | g :: gs =>
    match markHnas r g.hnas with
    | some hs => { g with hnas := hs } :: gs
    | none => g :: markGroups r gs

/-- One line of the table (olsrd_dyn_gw.c 492-520). -/
def line (fib : Int) (gs : List Grp) (r : Route) : List Grp :=
  if r.up = true ∧ r.metric ≠ fib then markGroups r gs else gs

/-- `update_routing` (olsrd_dyn_gw.c 463-533); `none`: the table cannot be opened. -/
def updateRouting (fib : Int) (gs : List Grp) : Option (List Route) → List Grp
  | none => gs
  | some rs =>
    (rs.foldl (line fib) (gs.map (fun g => { g with hnas := g.hnas.map (fun h => { h with checked := false }) }))).map
      (fun g => { g with hnas := g.hnas.map (fun h => { h with active := h.checked }) })

/-- The inner loop of `olsr_event_doing_hna` (olsrd_dyn_gw.c 349-363); `es` is `olsr_cnf->hna_entries`. -/
def tickHnas (probe : Bool) : List Net → List Hn → List Net × List Hn
  | es, [] => (es, [])
  | es, h :: hs =>
    if h.added = false then
      if probe = true ∧ h.active = true then
        ((tickHnas probe (h.net :: es) hs).1, { h with added := true } :: (tickHnas probe (h.net :: es) hs).2)
      else ((tickHnas probe es hs).1, h :: (tickHnas probe es hs).2)
    else
      if probe = false ∨ h.active = false then
        ((tickHnas probe (es.filter (fun e => e != h.net)) hs).1,
          { h with added := false } :: (tickHnas probe (es.filter (fun e => e != h.net)) hs).2)
      else ((tickHnas probe es hs).1, h :: (tickHnas probe es hs).2)

/-- The outer loop (olsrd_dyn_gw.c 348). -/
def tickGroups : List Net → List Grp → List Net × List Grp
  | es, [] => (es, [])
  | es, g :: gs =>
    ((tickGroups (tickHnas g.probe es g.hnas).1 gs).1,
      { g with hnas := (tickHnas g.probe es g.hnas).2 } :: (tickGroups (tickHnas g.probe es g.hnas).1 gs).2)

/-- The inner loop of `looped_checks` (olsrd_dyn_gw.c 383-394) with `check_gw` (:545-572).  `answers` tells for each
call of `ping_is_possible` whether one of the hosts answered. -/
def probeLoop (pings : List (List Nat)) : List Hn → List Bool → Bool → Bool
  | [], _, p => p
  | h :: hs, as, p =>
    if h.active = true then
      if pings = [] ∨ as.headD false = true then true else probeLoop pings hs as.tail false
    else probeLoop pings hs as p

/-- The groups, `olsr_cnf->hna_entries`, whether there is a ping thread, `olsr_cnf->fib_metric_default`. -/
structure St where
  groups : List Grp
  entries : List Net
  ping : Bool
  fib : Int
deriving DecidableEq, Repr

/-- `olsrd_plugin_init` (olsrd_dyn_gw.c 253-311) after the parameters. -/
def init (ps : List Param) (entries : List Net) (fib : Int) (table : Option (List Route)) : St :=
  { groups := (updateRouting fib (withDefault (ps.foldl setParam [])) table).map
      (fun g => if pingMode ps then g else { g with probe := true }),
    entries := entries, ping := pingMode ps, fib := fib }

/-- The timer function with the table it finds, and the checks of the `i`-th group by the ping thread. -/
inductive Ev where
  | tick (table : Option (List Route))
  | probe (i : Nat) (answers : List Bool)
deriving DecidableEq, Repr

/-- The checks of the group with number `i`. -/
def probeAt (answers : List Bool) : Nat → List Grp → List Grp
  | _, [] => []
  | 0, g :: gs => { g with probe := probeLoop g.pings g.hnas answers g.probe } :: gs
  | i + 1, g :: gs => g :: probeAt answers i gs

/-- One event. -/
def step (s : St) : Ev → St
  | .tick t =>
    { s with groups := (tickGroups s.entries (updateRouting s.fib s.groups t)).2,
             entries := (tickGroups s.entries (updateRouting s.fib s.groups t)).1 }
  | .probe i as => if s.ping then { s with groups := probeAt as i s.groups } else s

/-- A history. -/
def run (s : St) : List Ev → St
  | [] => s
  | e :: es => run (step s e) es

end Verif.DynGw
