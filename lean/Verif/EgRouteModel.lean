/-
Model of the routing table of one egress interface of a multi-smart-gateway,
/repo/src/gateway.c: `configureEgressLinkRoutes` (2079-2156), `determineEgressLinkRoute`
(1951-2014), `programRoute` (1809-1839), the link events (`doEgressInterface`, 582-650),
changes of the egress file (/repo/src/egressFile.c:383, C126), startup (964) and shutdown
(1011-1031).  Every egress interface has its own table (860), so one interface is enough.
-/
namespace Verif.EgRoute

/-- The parameters from the egress file that matter for the routes,
/repo/src/egressTypes.h:75-102: `requireNetwork`, `requireGateway`, and the network and
the gateway if they are set. -/
structure Par where
  rn : Bool
  rg : Bool
  net : Option (Nat × Nat)
  gw : Option Nat
deriving DecidableEq, Repr

/-- A route in the table of the interface (`struct sgw_route_info`): destination,
interface, gateway, and whether it is a network route. -/
structure Route where
  dst : Nat × Nat
  idx : Nat
  gw : Option Nat
  network : Bool
deriving DecidableEq, Repr

/-- The network route, gateway.c 2098-2110; `none` is a route that is not active. -/
def netRoute (up : Bool) (idx : Nat) (p : Par) : Option Route :=
  if p.rn = false ∨ up = false then none else p.net.map (fun d => ⟨d, idx, none, true⟩)

/-- The default route, gateway.c 2131-2143. -/
def defRoute (up : Bool) (idx : Nat) (p : Par) : Option Route :=
  if (p.rg = true ∧ p.gw = none) ∨ up = false then none else some ⟨(0, 0), idx, p.gw, false⟩

/-- What the operating system says when a request is made: the interfaces that are up with
a carrier (`isInterfaceUp`, gateway.c 1773-1803; there is no interface 0) and the routes
the kernel accepts. -/
structure Os where
  isUp : Nat → Bool
  accepts : Route → Bool

/-- `programRoute`, gateway.c 1809-1839, and the kernel: a new route replaces one with the
same destination, the removal of a route that is not there fails.  The result is the
`active` state of the route and the table. -/
def program (os : Os) (add : Bool) (r : Option Route) (kern : List Route) : Option Route × List Route :=
  match r with
  | none => (none, kern)
  | some r =>
    if r.idx = 0 ∨ os.isUp r.idx = false then (some r, kern)
    else if add = false then (none, kern.filter (fun x => decide (x ≠ r)))
    else if os.accepts r = true then (some r, r :: kern.filter (fun x => decide (x.dst ≠ r.dst)))
    else (none, kern)

inductive Phase where
  | startup
  | runtime
  | shutdown
deriving DecidableEq, Repr

/-- gateway.c 1665-1669: `MSGW_ROUTE_ADD_ALLOWED` and so on. -/
def addAllowed (ph : Phase) : Bool := ph != .shutdown
def addForced (ph : Phase) : Bool := ph == .startup
def delAllowed (ph : Phase) : Bool := ph != .startup
def delForced (ph : Phase) : Bool := ph == .shutdown
def forced (ph : Phase) : Bool := ph != .runtime

/-- The two requests for one route, gateway.c 2112-2122 and 2145-2154. -/
def change (ph : Phase) (os : Os) (old new : Option Route) (kern : List Route) : Option Route × List Route :=
  let k := if (old ≠ new ∨ delForced ph = true) ∧ delAllowed ph = true then (program os false old kern).2 else kern
  if (old ≠ new ∨ addForced ph = true) ∧ addAllowed ph = true then program os true new k else (new, k)

/-- `struct sgw_egress_if`, /repo/src/egressTypes.h:104-140, and the table of the kernel. -/
structure St where
  idx : Nat
  up : Bool
  par : Par
  nr : Option Route
  dr : Option Route
  kern : List Route
deriving DecidableEq, Repr

/-- The network part of `configureEgressLinkRoutes`, gateway.c 2091-2122. -/
def configNet (ph : Phase) (os : Os) (ch : Bool) (s : St) : St :=
  if ch = true ∨ forced ph = true then
    { s with nr := (change ph os s.nr (netRoute s.up s.idx s.par) s.kern).1
             kern := (change ph os s.nr (netRoute s.up s.idx s.par) s.kern).2 }
  else s

/-- The default part, gateway.c 2124-2155. -/
def configDef (ph : Phase) (os : Os) (ch : Bool) (s : St) : St :=
  if ch = true ∨ forced ph = true then
    { s with dr := (change ph os s.dr (defRoute s.up s.idx s.par) s.kern).1
             kern := (change ph os s.dr (defRoute s.up s.idx s.par) s.kern).2 }
  else s

/-- `configureEgressLinkRoutes` with the flags `upChanged`, `bwNetworkChanged` and
`bwGatewayChanged`; `doRoutesMultiGw` (gateway.c 2385-2437) clears them afterwards. -/
def configure (ph : Phase) (os : Os) (upCh netCh gwCh : Bool) (s : St) : St :=
  configDef ph os (upCh || gwCh) (configNet ph os (upCh || netCh) s)

/-- egressTypes.h 142-160: `egressBwNetworkChanged`, `egressBwGatewayChanged`. -/
def netChanged (a b : Par) : Bool := decide (a.rn ≠ b.rn ∨ a.net ≠ b.net)
def gwChanged (a b : Par) : Bool := decide (a.rg ≠ b.rg ∨ a.gw ≠ b.gw)

/-- egressFile.c 354-367: the parameters without an entry in the file. -/
def clear : Par := ⟨true, true, none, none⟩

/-- What happens.  `add` and `remove` are the messages of the kernel about an interface
(/repo/src/linux/kernel_routes_nl.c:116-153); they carry the index.  `flush` is the kernel
that removes the routes over an interface that is taken down or removed; it does not do so
when only the carrier is lost. -/
inductive Ev where
  | file (p : Par)
  | add (i : Nat)
  | remove (i : Nat)
  | flush (i : Nat)
deriving DecidableEq, Repr

/-- gateway.c 582-650 and egressFile.c 381-385.  An `add` for another interface does not
come here (596-600). -/
def step (os : Os) (s : St) : Ev → St
  | .file p => configure .runtime os false (netChanged s.par p) (gwChanged s.par p) { s with par := p }
  | .add i =>
    if s.up = true then { s with idx := i }
    else configure .runtime os true false false { s with idx := i, up := true }
  | .remove i =>
    if i ≠ s.idx ∨ i = 0 ∨ s.up = false then s
    else configure .runtime os true false false { s with up := false }
  | .flush i => { s with kern := s.kern.filter (fun r => decide (r.idx ≠ i)) }

/-- gateway.c 854-880, 963-964; the table is empty. -/
def start (os : Os) (idx : Nat) (up : Bool) (p : Par) : St :=
  configure .startup os false false false ⟨idx, up, p, none, none, []⟩

/-- gateway.c 1011-1031: `olsr_shutdown_gateways`. -/
def stop (os : Os) (s : St) : St :=
  configure .shutdown os s.up (netChanged s.par clear) (gwChanged s.par clear) { s with up := false, par := clear }

/-- A sequence of events, each with what the operating system says at that time. -/
def run (s : St) (l : List (Os × Ev)) : St := l.foldl (fun s e => step e.1 s e.2) s

end Verif.EgRoute
