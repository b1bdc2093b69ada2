/-
Model of the router election of the mdns plugin, /repo/lib/mdns/src/RouterElection.c
and `DoElection` in /repo/lib/mdns/src/mdns.c (639-702).

Several olsr routers may be attached to the same LAN.  To keep them from all
forwarding the same mDNS packets, each sends a hello into the LAN every 20
seconds and every 15 seconds decides for each of its own LAN interfaces whether
it is the master there.

Simplifications: addresses are lists of bytes in the order in which they are
stored (so that `memcmp` is the lexicographic order); the machine is
little-endian; memory is never exhausted.
-/
namespace Verif.MdnsElect

/-- RouterElection.h 54: `ENTRYTTL`. -/
def entryTtl : Nat := 10

/-- `struct RouterListEntry` / `RouterListEntry6`, RouterElection.h 65-81. -/
structure Entry where
  rid : List Nat
  net : Nat
  ttl : Nat
  skfd : Nat
  deriving DecidableEq, Repr

/-- The part of `struct TBmfInterface` that takes part in the election
(NetworkInterfaces.h, set by NetworkInterfaces.c 524-533).  `olsrIntf` is always
NULL ("FOR MDNS IS ALWAYS CALLED WITH NULL AS SECOND ARG", 455). -/
structure Ifc where
  esk : Nat
  active : Bool
  deriving DecidableEq, Repr

/-- The globals of RouterElection.c (81-86) and mdns.c.  `ready` tells whether
`ListOfRouter` has been initialised, `leaked` counts the entries that were
allocated and are neither in the list nor freed. -/
structure St where
  v6 : Bool
  own : List Nat
  net : Nat
  ready : Bool
  ifs : List Ifc
  rl : List Entry
  leaked : Nat
  deriving DecidableEq, Repr

/-- `memcmp(a, b, n) < 0` on byte lists of the same length. -/
def memLt : List Nat → List Nat → Bool
  | a :: as, b :: bs => if a < b then true else if b < a then false else memLt as bs
  | _, _ => false

/-- The bytes of the address that are compared: `sizeof(struct in_addr)` or
`sizeof(struct in6_addr)`. -/
def addrLen (v6 : Bool) : Nat := if v6 then 16 else 4

/-- "$REP", mdns.c 641, RouterElection.c 251. -/
def magic : List Nat := [36, 82, 69, 80]

/-- `AF_INET` stored in an `int` of a little-endian machine. -/
def afInet : List Nat := [2, 0, 0, 0]

/-- `AF_INET6` stored in an `int` of a little-endian machine. -/
def afInet6 : List Nat := [10, 0, 0, 0]

/-- RouterElection.c 242-260: `initTimer` builds the hello packet.  `main` are
the sixteen bytes of `olsr_cnf->main_addr`. -/
def helloPkt (v6 : Bool) (net : Nat) (main : List Nat) : List Nat :=
  magic ++ (if v6 then afInet6 else afInet) ++ main ++ [net]

/-- RouterElection.c 262-270 (`set_Network_ID`, called while the configuration
is read): the network id is stored in a byte. -/
def setNetworkId (s : St) (n : Nat) : St := { s with net := n % 256 }

/-- RouterElection.c 242-248: `initTimer`, one second after the start. -/
def initTimer (s : St) (main : List Nat) : St :=
  { s with ready := true, rl := [], net := 1, own := main.take (addrLen s.v6) }

/-- mdns.c 662-673 and RouterElection.c 89-107: is this a hello packet, and if
so, of which family, network and router?  (`sizeof(struct RtElHelloPkt)` is 25;
for a family other than AF_INET the packet is taken to be an IPv6 one.) -/
def parseHello (pkt : List Nat) : Option (Bool × Nat × List Nat) :=
  if pkt.length < 4 ∨ pkt.take 4 ≠ magic then none
  else if pkt.length < 25 then none
  else if (pkt.drop 4).take 4 = afInet then
    some (false, pkt.getD 24 0, (pkt.drop 8).take 4)
  else some (true, pkt.getD 24 0, (pkt.drop 8).take 16)

/-- The comparison of RouterElection.c 119-120 and 140-141. -/
def sameRouter (e t : Entry) : Bool :=
  t.net == e.net && t.skfd == e.skfd && e.rid == t.rid

/-- The loop of RouterElection.c 117-125 and 139-146: refresh all entries of the
same router; the flag is `exist`. -/
def refresh (e : Entry) : List Entry → List Entry × Bool
  | [] => ([], false)
  | t :: ts =>
    ((if sameRouter e t then { t with ttl := e.ttl } else t) :: (refresh e ts).1,
     sameRouter e t || (refresh e ts).2)

/-- RouterElection.c 109-150: `UpdateRouterList`, `UpdateRouterList6`.  An entry
of the other family is not put into the list and not freed by the caller
(mdns.c 679-680, 691-692), for the return value is 0. -/
def updateRouterList (s : St) (fam : Bool) (e : Entry) : St :=
  if fam ≠ s.v6 then { s with leaked := s.leaked + 1 }
  else if (refresh e s.rl).2 then { s with rl := (refresh e s.rl).1 }
  else { s with rl := (refresh e s.rl).1 ++ [e] }

/-- mdns.c 639-702: `DoElection`, a packet has arrived on an election socket.
`none`: walking the list whose head has not been initialised dereferences NULL. -/
def doElection (s : St) (skfd : Nat) (pkt : List Nat) : Option St :=
  match parseHello pkt with
  | none => some s
  | some (fam, net, rid) =>
    if s.ready = false ∧ fam = s.v6 then none
    else some (updateRouterList s fam ⟨rid, net, entryTtl, skfd⟩)

/-- The inner loop of `electTimer` (RouterElection.c 207-220, 223-233) for one
interface with election socket `esk`: the flag `isActive` and the list with every
`ttl` decremented. -/
def electOne (own : List Nat) (net esk : Nat) : List Entry → Bool → Bool × List Entry
  | [], act => (act, [])
  | t :: ts, act =>
    (electOne own net esk ts
        (if t.net = net ∧ t.skfd = esk ∧ memLt t.rid own = true then false else act) |>.1,
     (if t.ttl - 1 ≤ 0 then [] else [{ t with ttl := t.ttl - 1 }]) ++
       (electOne own net esk ts
         (if t.net = net ∧ t.skfd = esk ∧ memLt t.rid own = true then false else act)).2)

/-- RouterElection.c 198-237: the outer loop of `electTimer` over the
interfaces; every interface runs through the list and decrements. -/
def electAll (own : List Nat) (net : Nat) : List Ifc → List Entry → List Ifc × List Entry
  | [], rl => ([], rl)
  | i :: is, rl =>
    if rl = [] then
      ({ i with active := true } :: (electAll own net is rl).1, (electAll own net is rl).2)
    else
      ({ i with active := (electOne own net i.esk rl true).1 } ::
          (electAll own net is (electOne own net i.esk rl true).2).1,
       (electAll own net is (electOne own net i.esk rl true).2).2)

/-- RouterElection.c 190-240: `electTimer`. -/
def electTimer (s : St) : St :=
  { s with ifs := (electAll s.own s.net s.ifs s.rl).1,
           rl := (electAll s.own s.net s.ifs s.rl).2 }

/-- RouterElection.c 152-188: `helloTimer`; `ok` are the results of `sendto` on
the interfaces.  `none`: reporting a failed send reads
`walker->olsrIntf->int_name` with `olsrIntf` NULL. -/
def helloTimer (s : St) (ok : List Bool) : Option St :=
  if (ok.take s.ifs.length).all id then some s else none

/-- What can happen once `initTimer` has run. -/
inductive Ev where
  /-- a packet arrives on an election socket -/
  | recv (skfd : Nat) (pkt : List Nat)
  /-- the election timer fires -/
  | elect
  /-- the hello timer fires; results of `sendto` -/
  | hello (ok : List Bool)
  deriving DecidableEq, Repr

/-- One event. -/
def step (s : St) : Ev → Option St
  | .recv skfd pkt => doElection s skfd pkt
  | .elect => some (electTimer s)
  | .hello ok => helloTimer s ok

/-- A sequence of events. -/
def run (s : St) : List Ev → Option St
  | [] => some s
  | e :: es => (step s e).bind (fun t => run t es)

end Verif.MdnsElect
