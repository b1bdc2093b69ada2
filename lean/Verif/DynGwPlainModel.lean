import Verif.DynGwModel

/-!
# Model of `lib/dyn_gw_plain/src/olsrd_dyn_gw_plain.c` (IPv4)

The routing table is that of `Verif.DynGwModel`.  The HNA entries are a list shared with the rest of the daemon,
whose additions and removals (`ip_prefix_list_add`, `ip_prefix_list_remove`, olsrd_conf.c 1462-1504) are events of their own.
-/

namespace Verif.DynGwPlain

open Verif.DynGw (Net Route)

/-- `gw_net` and `gw_netmask` (olsrd_dyn_gw_plain.h 52-53): 0.0.0.0/0. -/
def inet : Net := ([0, 0, 0, 0], 0)

/-- `has_inet_gateway` and `olsr_cnf->hna_entries`. -/
structure St where
  has : Bool
  entries : List Net
deriving DecidableEq, Repr

/-- The loop over `ip_prefix_list_remove` (olsrd_dyn_gw_plain.c 121-123, 204-206): all of them. -/
def removeAll (n : Net) (es : List Net) : List Net := es.filter (fun e => e != n)

/-- `olsrd_plugin_init` (olsrd_dyn_gw_plain.c 112-129). -/
def init (es : List Net) : St := { has := false, entries := removeAll inet es }

/-- `check_gw` (olsrd_dyn_gw_plain.c 131-188): `none` is -1. -/
def checkGw : Option (List Route) → Option Bool
  | none => none
  | some rs => some (rs.foldl (fun v r => if r.up = true ∧ r.metric = 0 ∧ r.mask = [0, 0, 0, 0] ∧ r.dest = [0, 0, 0, 0] then true else v) false)

/-- The timer function with the table it finds; the rest of the daemon adds or removes an entry. -/
inductive Ev where
  | tick (table : Option (List Route))
  | add (n : Net)
  | del (n : Net)
deriving DecidableEq, Repr

/-- `olsr_event` (olsrd_dyn_gw_plain.c 194-209), and the changes of others. -/
def step (s : St) : Ev → St
  | .tick t =>
    if checkGw t = some true ∧ s.has = false then { has := true, entries := inet :: s.entries }
    else if checkGw t = some false ∧ s.has = true then { has := false, entries := removeAll inet s.entries }
    else s
  | .add n => { s with entries := n :: s.entries }
  | .del n => { s with entries := s.entries.erase n }

/-- A history. -/
def run (s : St) : List Ev → St
  | [] => s
  | e :: es => run (step s e) es

end Verif.DynGwPlain
