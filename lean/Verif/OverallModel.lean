import Verif.EgressModel
/-
Model of the choice between the egress links and the chosen smart gateway of the mesh in a
multi-smart-gateway and of the two routes (0.0.0.0/1 and 128.0.0.0/1) for it,
/repo/src/gateway.c: `determineBestEgressLink` (1684-1727, the choice itself is
`Egress.determine`, C55), `determineBestOverallLink` (1740-1771),
`determineBestOverallLinkRoutes` (1851-1904), `setupDefaultGatewayOverrideRoutes`
(1912-1937), `programRoute` (1809-1839), `doRoutesMultiGw` (2364-2437).
-/
namespace Verif.Overall

open Egress (Link determine int64Max)

/-- The current smart gateway (`current_ipv4_gw`): the entry, its `path_cost` and the index
of its tunnel interface, 0 without a tunnel. -/
structure Gw where
  id : Nat
  cost : Nat
  tun : Nat
deriving DecidableEq, Repr

/-- What the functions read: the egress links, the gateway, `allOlsrInterfacesDown`, and
the bandwidth of every egress link. -/
structure World where
  links : List Link
  gw : Option Gw
  allDown : Bool
  bw : Nat → Nat × Nat

/-- `struct BestOverallLink`, gateway.c 130-147, as `memcmp` compares it (gateway.c 1770). -/
inductive Best where
  | none
  | egress (id : Nat)
  | olsr (id tun : Nat)
deriving DecidableEq, Repr

/-- One of the two routes: interface and gateway.  The two differ only in their
destination and are treated alike. -/
structure Route where
  idx : Nat
  gw : Option Nat
deriving DecidableEq, Repr

/-- The operating system at a request: `isInterfaceUp` (gateway.c 1773-1803), and the routes
the kernel accepts. -/
structure Os where
  isUp : Nat → Bool
  accepts : Route → Bool

/-- `bestEgressLink` points to a link, whose contents are the present ones. -/
def live (w : World) : Option Nat → Option Link
  | none => none
  | some i => w.links.find? (fun l => decide (l.id = i))

/-- gateway.c 1744. -/
def olsrCost (w : World) : Nat :=
  match w.gw with
  | none => int64Max
  | some g => if w.allDown = true then int64Max else g.cost

/-- gateway.c 1743. -/
def egressCost : Option Link → Nat
  | none => int64Max
  | some l => l.cost

/-- gateway.c 1740-1768, not at shutdown. -/
def overall (be : Option Link) (w : World) : Best :=
  if min (egressCost be) (olsrCost w) = int64Max then .none
  else if egressCost be ≤ olsrCost w then
    (match be with
     | some l => .egress l.id
     | none => .none)
  else
    (match w.gw with
     | some g => .olsr g.id g.tun
     | none => .none)

/-- gateway.c 1851-1904: `none` is a route that is not active. -/
def routeOf (be : Option Link) (w : World) : Best → Option Route
  | .none => none
  | .egress _ =>
    (match be with
     | some l => if l.idx = 0 then none else some ⟨l.idx, l.gw⟩
     | none => none)
  | .olsr _ _ =>
    (match w.gw with
     | some g => if g.tun = 0 then none else some ⟨g.tun, none⟩
     | none => none)

/-- gateway.c 1809-1839 on the routes with one destination: adding replaces, the removal of
a route that is not there fails.  The result is the `active` state and the table. -/
def program (os : Os) (add : Bool) (r kern : Option Route) : Option Route × Option Route :=
  match r with
  | none => (none, kern)
  | some r =>
    if os.isUp r.idx = false then (some r, kern)
    else if add = false then (none, if kern = some r then none else kern)
    else if os.accepts r = true then (some r, some r)
    else (none, kern)

/-- `bestEgressLink`, `olsrInterfacesAllDown`, `bestOverallLink`, `bestOverallLinkRoutes`,
the announced bandwidth (`smart_gw_uplink`, `smart_gw_downlink`) and the route in the
kernel. -/
structure St where
  be : Option Nat
  allDown : Bool
  best : Best
  route : Option Route
  ann : Nat × Nat
  kern : Option Route
deriving DecidableEq, Repr

/-- A call of `doRoutesMultiGw` with its arguments; `dirty` is `upChanged` or `bwChanged` of
the link that is now the best egress link; `gone` are the interfaces that were taken down
or removed before the call, over which the kernel has removed the routes. -/
structure Ev where
  w : World
  os : Os
  egressChanged : Bool
  olsrChanged : Bool
  dirty : Bool
  gone : Nat → Bool

/-- gateway.c 2374-2377. -/
def oCh (s : St) (e : Ev) : Bool := e.olsrChanged || decide (e.w.allDown ≠ s.allDown)

/-- gateway.c 1684-1708, 2385-2388. -/
def newBe (force : Bool) (s : St) (e : Ev) : Option Nat :=
  if e.egressChanged = true ∨ force = true then (determine e.w.links).map (fun l => l.id) else s.be

/-- gateway.c 1710-1711. -/
def beChanged (force : Bool) (s : St) (e : Ev) : Bool :=
  decide (e.egressChanged = true ∨ force = true) &&
    (decide (s.be ≠ newBe force s e) || ((newBe force s e).isSome && e.dirty))

/-- gateway.c 1713-1722. -/
def newAnn (force : Bool) (s : St) (e : Ev) : Nat × Nat :=
  if beChanged force s e = true ∨ force = true then
    (match newBe force s e with
     | some i => e.w.bw i
     | none => (0, 0))
  else s.ann

/-- gateway.c 2390-2392. -/
def newBest (force : Bool) (s : St) (e : Ev) : Best :=
  if oCh s e = true ∨ beChanged force s e = true ∨ force = true then
    overall (live e.w (newBe force s e)) e.w
  else s.best

/-- The kernel removes routes. -/
def flush (gone : Nat → Bool) (kern : Option Route) : Option Route :=
  match kern with
  | some r => if gone r.idx = true then none else some r
  | none => none

/-- gateway.c 1912-1937 at runtime or startup (`force`). -/
def setup (force : Bool) (os : Os) (old new kern : Option Route) : Option Route × Option Route :=
  let k := if old ≠ new ∧ force = false then (program os false old kern).2 else kern
  if old ≠ new ∨ force = true then program os true new k else (new, k)

/-- The new routes, gateway.c 1916-1918, 2394-2396. -/
def newRoute (force : Bool) (s : St) (e : Ev) : Option Route × Option Route :=
  if newBest force s e ≠ s.best ∨ force = true then
    setup force e.os s.route (routeOf (live e.w (newBe force s e)) e.w (newBest force s e)) (flush e.gone s.kern)
  else (s.route, flush e.gone s.kern)

/-- `doRoutesMultiGw`, gateway.c 2364-2437. -/
def step (force : Bool) (s : St) (e : Ev) : St :=
  if e.egressChanged = false ∧ oCh s e = false ∧ force = false then { s with kern := flush e.gone s.kern }
  else ⟨newBe force s e, e.w.allDown, newBest force s e, (newRoute force s e).1, newAnn force s e, (newRoute force s e).2⟩

/-- gateway.c 821-848. -/
def init : St := ⟨none, false, .none, none, (0, 0), none⟩

/-- Startup (gateway.c 964) and what follows. -/
def run (first : Ev) (l : List Ev) : St := l.foldl (step false) (step true init first)

/-- Shutdown, gateway.c 1031: there is no best link, and the old route is removed. -/
def stop (os : Os) (s : St) : St := ⟨none, s.allDown, .none, none, (0, 0), (program os false s.route s.kern).2⟩

end Verif.Overall
