/-
Model of the tunnels to the gateways: `src/linux/kernel_tunnel.c`, the interface names
(`src/gateway.c:264-346`) and their users `olsr_set_inet_gateway` (gateway.c:1552-1588,
1606-1642), `removeGatewayFromList` (gateway.c:727-739) and `olsr_delete_gateway_tree_entry`
(gateway.c:1415-1460).

A gateway is named by its originator.  The order of the lists (by costs) and the current gateway are
the subject of C32; here a full list drops any one of its gateways.  Routes and scripts are not
modelled.
-/

namespace Verif.Tunnel

/-- The name of a tunnel interface: that of a slot ("tnl_4" or "tnl_6" and the table number,
gateway.c:895, 902; the numbers of at most 64 slots differ), or a classic one with 8 hexadecimal
digits (gateway.c:323), made of the originator or of a counter. -/
inductive Name where
  | slot (i : Nat)
  | addr (g : Nat)
  | ctr (n : Nat)
deriving DecidableEq, Repr

/-- `struct olsr_iptunnel_entry` (kernel_tunnel.h:69-77). -/
structure Ent where
  target : Nat
  name : Name
  usage : Nat
deriving DecidableEq, Repr

/-- The two families of gateways. -/
inductive Fam where
  | v4
  | v6
deriving DecidableEq, Repr

/-- The tunnels in the kernel (name, target), `tunnel_tree`, the gateways that use the interface
names (`sgwTunnel4InterfaceNames` or `sgwTunnel6InterfaceNames`, by `ip_version`), the gateways in
`gw_list_ipv4` and `gw_list_ipv6`, and the counter of gateway.c:302. -/
structure St where
  kern : List (Name × Nat)
  tree : List Ent
  slots : List (Option Nat)
  l4 : List Nat
  l6 : List Nat
  ctr : Nat
deriving DecidableEq, Repr

/-- `ip_version == AF_INET` and `smart_gw_use_count`. -/
structure Cfg where
  inet : Bool
  use : Nat
deriving DecidableEq, Repr

/-- The list of a family. -/
def St.list (st : St) : Fam → List Nat
  | .v4 => st.l4
  | .v6 => st.l6

/-- Replaces the list of a family. -/
def St.setList (st : St) (f : Fam) (l : List Nat) : St :=
  match f with
  | .v4 => { st with l4 := l }
  | .v6 => { st with l6 := l }

/-- `multi_gateway_mode` (gateway.h:67-69). -/
def multi (cfg : Cfg) : Bool := decide (1 < cfg.use)

/-- At start (gateway.c:884-903, kernel_tunnel.c:89-92). -/
def start (cfg : Cfg) : St := ⟨[], [], List.replicate cfg.use none, [], [], 0⟩

/-- `find_interfaceName` (gateway.c:271-292): the first slot of a gateway, or the first free one. -/
def findSlot (cfg : Cfg) (slots : List (Option Nat)) (g : Option Nat) : Option Nat :=
  if multi cfg then slots.findIdx? (fun s => s == g) else none

/-- `get_unused_iptunnel_name` (gateway.c:301-325). -/
def getName (cfg : Cfg) (g : Nat) (st : St) : St × Name :=
  match findSlot cfg st.slots none with
  | some i => ({ st with slots := st.slots.set i (some g) }, .slot i)
  | none =>
    if cfg.inet then (st, .addr g)
    else ({ st with ctr := st.ctr + 1 }, .ctr (st.ctr + 1))

/-- `set_unused_iptunnel_name` (gateway.c:332-346). -/
def setUnused (cfg : Cfg) (g : Nat) (st : St) : St :=
  match findSlot cfg st.slots (some g) with
  | some i => { st with slots := st.slots.set i none }
  | none => st

/-- `olsr_os_add_ipip_tunnel` (kernel_tunnel.c:199-236); the result says whether there is a tunnel.
The kernel refuses a name that is in use; it can refuse others (`ok`) and it can refuse to set the
new interface up (`up`), which is then removed. -/
def addTunnel (ok up : Bool) (g : Nat) (name : Name) (st : St) : St × Bool :=
  match st.tree.find? (fun e => e.target == g) with
  | some _ =>
    ({ st with tree := st.tree.map fun e =>
        if e.target = g then { e with usage := e.usage + 1 } else e }, true)
  | none =>
    if ok && up && !(st.kern.any fun k => k.1 == name) then
      ({ st with kern := (name, g) :: st.kern, tree := ⟨g, name, 1⟩ :: st.tree }, true)
    else (st, false)

/-- `olsr_os_del_ipip_tunnel` (kernel_tunnel.c:243-258) for the tunnel to `g`.  A pointer to an entry
that does not exist is undefined behaviour (`none`).  The kernel removes the interface. -/
def delTunnel (g : Nat) (st : St) : Option St :=
  match st.tree.find? (fun e => e.target == g) with
  | none => none
  | some e =>
    if e.usage = 0 then some st
    else if 0 < e.usage - 1 then
      some { st with tree := st.tree.map fun x =>
        if x.target = g then { x with usage := x.usage - 1 } else x }
    else
      some { st with kern := st.kern.filter (fun k => k.1 ≠ e.name)
                     tree := st.tree.filter (fun x => x.target ≠ g) }

/-- `removeGatewayFromList` (gateway.c:727-739), and the same in `olsr_delete_gateway_tree_entry`
(gateway.c:1423-1435, 1446-1458), for a gateway on the list.  Every gateway on a list has a tunnel. -/
def removeFromList (cfg : Cfg) (f : Fam) (g : Nat) (st : St) : Option St :=
  match delTunnel g st with
  | none => none
  | some st1 =>
    let st2 := setUnused cfg g st1
    some (st2.setList f ((st2.list f).erase g))

/-- The rest of `olsr_set_inet_gateway` once there is room (gateway.c:1566-1586, 1620-1640). -/
def enter (cfg : Cfg) (f : Fam) (g : Nat) (ok up : Bool) (st : St) : St :=
  let r := getName cfg g st
  let a := addTunnel ok up g r.2 r.1
  if a.2 then a.1.setList f (g :: a.1.list f) else setUnused cfg g a.1

/-- `olsr_set_inet_gateway` for a family (gateway.c:1542-1588, 1596-1642).  A full list first drops
its worst gateway, here the one at place `k` (modulo the length). -/
def activate (cfg : Cfg) (f : Fam) (g : Nat) (ok up : Bool) (k : Nat) (st : St) : Option St :=
  if g ∈ st.list f then some st
  else if cfg.use ≤ (st.list f).length then
    match (st.list f)[k % (st.list f).length]? with
    | none => none
    | some w =>
      match removeFromList cfg f w st with
      | none => none
      | some st1 => some (enter cfg f g ok up st1)
  else some (enter cfg f g ok up st)

/-- What can happen: a gateway is chosen for a family, or is dropped from its list. -/
inductive Op where
  | choose (f : Fam) (g : Nat) (ok up : Bool) (k : Nat)
  | drop (f : Fam) (g : Nat)
deriving DecidableEq, Repr

/-- One event. -/
def step (cfg : Cfg) (st : St) : Op → Option St
  | .choose f g ok up k => activate cfg f g ok up k st
  | .drop f g => if g ∈ st.list f then removeFromList cfg f g st else some st

/-- A sequence of events. -/
def run (cfg : Cfg) : St → List Op → Option St
  | st, [] => some st
  | st, op :: l => (step cfg st op).bind fun st1 => run cfg st1 l

/-- The loop of `olsr_os_cleanup_iptunnel` (kernel_tunnel.c:106-114), one round per entry; the entry
is given the usage count 1 and deleted. -/
def cleanup : Nat → St → Option St
  | 0, st => some st
  | n + 1, st =>
    match st.tree with
    | [] => some st
    | e :: r => (delTunnel e.target { st with tree := { e with usage := 1 } :: r }).bind (cleanup n)

end Verif.Tunnel
