/-
Model of the choice of the egress link of a multi-smart-gateway and of the
default route for it, /repo/src/gateway.c:1684-1727 (`determineBestEgressLink`),
1809-1839 (`programRoute`), 1951-2068 (`determineEgressLinkRoute`,
`configureBestEgressLinkRoute`), 2385-2412 (`doRoutesMultiGw`).
-/
namespace Verif.Egress

/-- `INT64_MAX`. -/
def int64Max : Nat := 9223372036854775807

/-- The part of `struct sgw_egress_if` that is read: position in the
configuration, `if_index`, `upCurrent`, `bwCurrent.costs`, the gateway if set,
/repo/src/egressTypes.h:98-140; `osUp` is what `isInterfaceUp(if_index)` finds
out from the operating system, /repo/src/gateway.c:1773-1803. -/
structure Link where
  id : Nat
  idx : Nat
  up : Bool
  cost : Nat
  gw : Option Nat
  osUp : Bool
deriving DecidableEq, Repr

/-- One round of the loop at /repo/src/gateway.c:1694-1701. -/
def better (b l : Link) : Link :=
  if l.up = true ∧ l.cost < b.cost ∧ l.osUp = true then l else b

/-- `determineBestEgressLink`, /repo/src/gateway.c:1684-1706, not at shutdown;
the head of the list is the first candidate. -/
def determine (links : List Link) : Option Link :=
  match links with
  | [] => none
  | f :: l =>
    if (l.foldl better f).up = false ∨ (l.foldl better f).cost = int64Max then none
    else some (l.foldl better f)

/-- The route `determineEgressLinkRoute` makes for the best egress link,
/repo/src/gateway.c:1964-2014: a blackhole without an interface. -/
inductive Route where
  | blackhole
  | via (idx : Nat) (gw : Option Nat)
deriving DecidableEq, Repr

def routeOf : Option Link → Route
  | none => .blackhole
  | some l => if l.idx = 0 then .blackhole else .via l.idx l.gw

/-- `route.if_index`. -/
def ifOf : Route → Nat
  | .blackhole => 0
  | .via i _ => i

/-- The interfaces that are up; there is no interface 0, `if_indextoname`
fails. -/
def isUp (os : Nat → Bool) (i : Nat) : Bool := if i = 0 then false else os i

/-- `programRoute`, /repo/src/gateway.c:1809-1839, on the one default route of
the table.  Adding replaces, deleting needs the same route.  Failing requests
are not modelled. -/
def program (os : Nat → Bool) (add : Bool) (r : Option Route) (kern : Option Route) : Option Route :=
  match r with
  | none => kern
  | some r =>
    if isUp os (ifOf r) = false then kern
    else if add = true then some r
    else if kern = some r then none else kern

/-- `bestEgressLink`, `bestEgressLinkRoute` (`none` if not active) and the route
in the kernel. -/
structure St where
  best : Option Link
  route : Option Route
  kern : Option Route
deriving DecidableEq, Repr

/-- Before startup. -/
def init : St := ⟨none, none, none⟩

/-- `configureBestEgressLinkRoute`, /repo/src/gateway.c:2028-2068. -/
def configure (os : Nat → Bool) (startup : Bool) (s : St) (best : Option Link) : St :=
  if s.best = none ∧ best = none ∧ startup = false then { s with best := best }
  else
    let new := some (routeOf best)
    let changed := decide (s.route ≠ new)
    let k1 := if changed = true ∧ startup = false then program os false s.route s.kern else s.kern
    let k2 := if changed = true ∨ startup = true then program os true new k1 else k1
    ⟨best, new, k2⟩

/-- The kernel removes the routes over an interface that goes down. -/
def flush (os : Nat → Bool) (kern : Option Route) : Option Route :=
  match kern with
  | some (.via i g) => if isUp os i = false then none else some (.via i g)
  | k => k

/-- Something happened to the egress links: what they are now, the interfaces
that are up, whether `upChanged` or `bwChanged` is set on the best one. -/
structure Event where
  links : List Link
  os : Nat → Bool
  dirty : Bool

/-- `doRoutesMultiGw`, /repo/src/gateway.c:2385-2412; the best link is compared
by address, /repo/src/gateway.c:1711. -/
def step (startup : Bool) (s : St) (e : Event) : St :=
  let s := { s with kern := flush e.os s.kern }
  let best := determine e.links
  if s.best.map (·.id) ≠ best.map (·.id) ∨ (best.isSome = true ∧ e.dirty = true) ∨ startup = true then
    configure e.os startup s best
  else { s with best := best }

/-- Startup and then everything that happens. -/
def run (first : Event) (l : List Event) : St := l.foldl (step false) (step true init first)

end Verif.Egress
