/-!
# Model of `src/olsr_niit.c`: routes into the IPv4/IPv6 translation devices

An IPv6 daemon with `UseNiit`.  `niit4to6` is the device that takes IPv4 traffic into the mesh,
`niit6to4` the one that takes it out.  Besides the daemon's own state the model has the two sets of
kernel routes through these devices and the set of ordinary routes that are in the kernel.

Simplifications: sets are lists without order; adding a route that is there fails in the kernel and changes
nothing, deleting one that is not there as well; the link events arrive, and a device that goes down loses
its routes in the kernel.  `host_emul` is off.  A deletion of an ordinary route that fails leaves it in the
kernel.  Link-local destinations (process_routes.c:163-169, 202-208) are not mapped ones and are left out.
-/

namespace Verif.Niit

/-- `struct olsr_ip_prefix`: 16 or 4 address bytes, and the length -/
structure Pfx where
  addr : List Nat
  len : Nat
deriving DecidableEq, Repr

/-- `is_prefix_niit_ipv6` (ipcalc.h:168-182) and `ip_prefix_is_mappedv4` (:197-201): the first 12 bytes of
`::ffff:0:0`, and the length is at least 96 -/
def isMapped (p : Pfx) : Bool := p.addr.take 12 == [0, 0, 0, 0, 0, 0, 0, 0, 0, 0, 255, 255] && decide (p.len ≥ 96)

/-- `prefix_mappedv4_to_v4` (ipcalc.h:184-189) -/
def toV4 (p : Pfx) : Pfx := ⟨(p.addr.drop 12).take 4, p.len - 96⟩

/-- the daemon and the kernel -/
structure St where
  /-- `niit4to6_active`, `niit6to4_active` (olsr_niit.c:56); also the state of the devices -/
  up4 : Bool
  up6 : Bool
  /-- `olsr_cnf->hna_entries` -/
  hna : List Pfx
  /-- the destinations in `routingtree` -/
  tree : List Pfx := []
  /-- those of them whose route is in the kernel -/
  inst : List Pfx := []
  /-- IPv4 routes to `niit4to6` -/
  k46 : List Pfx := []
  /-- IPv6 routes to `niit6to4` -/
  k64 : List Pfx := []
deriving DecidableEq, Repr

/-- adding to a set -/
def ins (x : Pfx) (l : List Pfx) : List Pfx := if x ∈ l then l else x :: l

/-- removing from a set -/
def del (x : Pfx) (l : List Pfx) : List Pfx := l.filter (fun y => decide (y ≠ x))

/-- `olsr_os_niit_4to6_route` and `olsr_os_niit_6to4_route` (kernel_routes_nl.c:468-488) -/
def kroute (set : Bool) (l : List Pfx) (p : Pfx) : List Pfx := if set then ins p l else del p l

/-- `olsr_setup_niit_routes` (olsr_niit.c:85-97) -/
def setup (s : St) : St :=
  if !s.up4 || !s.up6 then s
  else { s with k64 := (s.hna.filter isMapped).foldl (kroute true) s.k64 }

/-- `olsr_cleanup_niit_routes` (olsr_niit.c:99-111) -/
def cleanup (s : St) : St :=
  if !s.up6 then s
  else { s with k64 := (s.hna.filter isMapped).foldl (kroute false) s.k64 }

/-- `olsr_niit_handle_route` (olsr_niit.c:113-121) -/
def handle (s : St) (p : Pfx) (set : Bool) : St :=
  if s.up4 && s.up6 && isMapped p then { s with k46 := kroute set s.k46 (toV4 p) } else s

/-- `refresh_niit4to6_routes` (olsr_niit.c:123-141) -/
def refresh (s : St) (set : Bool) : St :=
  if set && (!s.up4 || !s.up6) then s
  else if !set && !s.up4 then s
  else { s with k46 := ((s.tree.filter isMapped).map toV4).foldl (kroute set) s.k46 }

/-- the second part of `handle_niit_ifchange` (olsr_niit.c:154-166): `was` is the state before -/
def changed (was : Bool) (s : St) : St :=
  if was ≠ (s.up4 && s.up6) then
    if !was then refresh (setup s) true else refresh (cleanup s) false
  else s

/-- `handle_niit_ifchange` (olsr_niit.c:143-168) for `niit4to6`; going down, the kernel has dropped the
routes of the device -/
def link4 (s : St) (up : Bool) : St :=
  changed (s.up4 && s.up6) { s with up4 := up, k46 := if up then s.k46 else [] }

/-- the same for `niit6to4` -/
def link6 (s : St) (up : Bool) : St :=
  changed (s.up4 && s.up6) { s with up6 := up, k64 := if up then s.k64 else [] }

/-- the start: `olsr_init_niit` (olsr_niit.c:58-83) with both devices there, and the setup in `main`
(main.c:739-742) -/
def init (up4 up6 : Bool) (hna : List Pfx) : St := setup { up4 := up4, up6 := up6, hna := hna }

/-- `olsr_delete_kernel_route` (process_routes.c:159-189); `ok`: the kernel does it -/
def kdel (s : St) (p : Pfx) (ok : Bool) : St :=
  if ok then handle { s with inst := del p s.inst } p false else s

/-- `olsr_add_kernel_route` (process_routes.c:196-233) -/
def kadd (s : St) (p : Pfx) (ok : Bool) : St :=
  if ok then handle { s with inst := ins p s.inst } p true else s

/-- events -/
inductive Op
  /-- a destination gets its first route or another one (process_routes.c:243-280): deletion of the old one
  (`none`: not tried, there was none), then addition -/
  | change (p : Pfx) (d : Option Bool) (a : Bool)
  /-- all paths of a destination are gone (process_routes.c:331-341): it leaves the tree if the deletion
  succeeds -/
  | remove (p : Pfx) (ok : Bool)
  /-- its paths all used an interface that went away (`olsr_delete_interface_routes`,
  process_routes.c:359-407); the kernel has dropped the route -/
  | lost (p : Pfx)
  | link4 (up : Bool)
  | link6 (up : Bool)
  /-- `ip_prefix_list_add` and `ip_prefix_list_remove` on `hna_entries` at run time (plugins) -/
  | hnaAdd (p : Pfx)
  | hnaDel (p : Pfx)
deriving DecidableEq, Repr

/-- the deletion before a change -/
def predel (s : St) (p : Pfx) : Option Bool → St
  | none => s
  | some ok => kdel s p ok

/-- one event -/
def step (s : St) : Op → St
  | .change p d a => kadd (predel { s with tree := ins p s.tree } p d) p a
  | .remove p ok =>
    if p ∈ s.tree then
      if ok then { kdel s p true with tree := del p s.tree } else s
    else s
  | .lost p => { s with tree := del p s.tree, inst := del p s.inst }
  | .link4 up => link4 s up
  | .link6 up => link6 s up
  | .hnaAdd p => { s with hna := p :: s.hna }
  | .hnaDel p => { s with hna := s.hna.erase p }

/-- the end (main.c:245-265): all routes are deleted, then the static ones -/
def shutdown (s : St) : St :=
  cleanup (s.tree.foldl (fun t p => step t (.remove p true)) s)

end Verif.Niit
