import Verif.HistModel
import Verif.CksumModel

/-!
# Model of the forwarding decisions of the multicast plug-in

`lib/bmf/src/Bmf.c` (`BmfPacketCaptured`, `BmfEncapsulationPacketReceived`,
`EncapsulateAndForwardPacket`, `ForwardPacket`) and `FindNeighbors`
(lib/bmf/src/NetworkInterfaces.c:453-982, the variant without
`USING_THALES_LINK_COST_ROUTING`).  The calls of `poll`/`sendto`/`write` are recorded as
the ranges of the receive buffer they pass on; they are taken to succeed.  The rewriting
of destination addresses before a send (model in `CksumModel`) changes neither the
decisions nor the ranges and is left out.
-/

namespace Verif.Bmf

open Verif.Cksum (be16)

/-- the fields of `struct link_entry` that are read; `best` tells whether
`get_best_link_to_neighbor(&neighbor_iface_addr)` returns this very entry. -/
structure Link where
  localAddr : Nat
  nbAddr : Nat
  cost : Nat
  best : Bool
deriving DecidableEq, Repr

/-- What the plug-in asks the daemon. -/
structure Env where
  /-- `MainAddressOf` (Bmf.c:144-154) -/
  main : Nat → Nat
  /-- the link set, in list order -/
  links : List Link
  /-- link cost of `get_best_link_to_neighbor(forwardedBy)`, if there is a link -/
  costTo : Nat → Option Nat
  /-- cost of the topology edge between two main addresses, if known -/
  edge : Nat → Nat → Option Nat
  /-- `olsr_cnf->lq_level != 0` -/
  lq : Bool
  /-- `FanOutLimit` -/
  fanOut : Nat
  /-- `BmfMechanism == BM_UNICAST_PROMISCUOUS` -/
  promiscuous : Bool
  /-- `BroadcastRetransmitCount` -/
  retransmit : Nat

/-- `LINK_COST_BROKEN` (src/lq_plugin.h:56) -/
def broken : Nat := 4194304

/-- `p != NULL && ipequal(neighborMainIp, MainAddressOf(p))` -/
def isNode (env : Env) (a : Nat) : Option Nat → Bool
  | none => false
  | some x => env.main a == env.main x

/-- `previousLinkEtx` (NetworkInterfaces.c:762-774) -/
def previousEtx (env : Env) : Option Nat → Nat
  | none => broken
  | some f => (env.costTo f).getD broken

/-- the topology test (NetworkInterfaces.c:903-935): the forwarder reaches the neighbour
itself at lower cost than through this node.  The sum is in `uint32_t`. -/
def directBetter (env : Env) (l : Link) : Option Nat → Bool
  | none => false
  | some f =>
    match env.edge (env.main f) (env.main l.nbAddr) with
    | none => false
    | some c => decide (c < (previousEtx env (some f) + l.cost) % 4294967296)

/-- The `continue` statements of the loop: the link is skipped
(NetworkInterfaces.c:485-534 and 787-935). -/
def skip (env : Env) (intf : Nat) (src by_ to_ : Option Nat) (l : Link) : Bool :=
  l.localAddr != intf || isNode env l.nbAddr src || isNode env l.nbAddr by_ || isNode env l.nbAddr to_ ||
  (env.lq && (decide (broken ≤ l.cost) || !l.best || directBetter env l by_))

/-- The output parameters of `FindNeighbors`: the array `links` of ten pointers, the best
neighbour with its cost, and the count.  `bad` records a store behind the array. -/
structure Found where
  arr : List (Option Link)
  best : Option Link
  bestEtx : Nat
  n : Nat
  bad : Bool
deriving DecidableEq, Repr

/-- one link that was not skipped (NetworkInterfaces.c:542-555 and 937-957) -/
def take (env : Env) (f : Found) (l : Link) : Found :=
  let better := if env.lq then decide (l.cost < f.bestEtx) else f.best.isNone
  { arr := if f.n < env.fanOut then f.arr.set f.n (some l) else f.arr
    best := if better then some l else f.best
    bestEtx := if better then l.cost else f.bestEtx
    n := f.n + 1
    bad := f.bad || (decide (f.n < env.fanOut) && decide (10 ≤ f.n)) }

/-- `FindNeighbors` (NetworkInterfaces.c:453-982); `MAX_UNICAST_NEIGHBORS` is 10. -/
def find (env : Env) (intf : Nat) (src by_ to_ : Option Nat) : Found :=
  env.links.foldl (fun f l => if skip env intf src by_ to_ l then f else take env f l)
    ⟨List.replicate 10 none, none, broken, 0, false⟩

/-- destination of an encapsulated packet -/
inductive Dest where
  | unicast (addr : Nat)
  | broadcast
deriving DecidableEq, Repr

/-- result of choosing the destinations -/
inductive Choice where
  | to (ds : List Dest)
  /-- a null pointer is followed -/
  | null
  /-- an array is left -/
  | outside
deriving DecidableEq, Repr

/-- the destinations `links[0] .. links[n-1]` -/
def unicasts : List (Option Link) → Nat → Choice
  | _, 0 => .to []
  | [], _ + 1 => .outside
  | none :: _, _ + 1 => .null
  | some l :: rest, n + 1 =>
    match unicasts rest n with
    | .to ds => .to (.unicast l.nbAddr :: ds)
    | c => c

/-- `EncapsulateAndForwardPacket` (Bmf.c:255-385): to whom the packet is sent. -/
def choose (env : Env) (intf : Nat) (src by_ to_ : Option Nat) : Choice :=
  let f := find env intf src by_ to_
  if f.bad then .outside
  else if f.n = 0 then .to []
  else if env.promiscuous then unicasts (f.arr.set 0 f.best) 1
  else if f.n ≤ env.fanOut then unicasts f.arr f.n
  else .to (List.replicate env.retransmit .broadcast)

/-! ## Received packets -/

/-- a network interface of the plug-in -/
structure Intf where
  id : Nat
  /-- `olsrIntf != NULL` -/
  olsr : Bool
  addr : Nat
deriving DecidableEq, Repr

/-- A range of the receive buffer is passed on. -/
inductive Send where
  /-- `ForwardPacket` on an interface without OLSR (Bmf.c:170-240) -/
  | raw (id start len : Nat)
  /-- `EncapsulateAndForwardPacket` on an OLSR interface; one `sendto` per destination -/
  | encap (id start len : Nat) (c : Choice)
  /-- `write` to the tun/tap interface (Bmf.c:743) -/
  | deliver (start len : Nat)
deriving DecidableEq, Repr

/-- `GetIpTotalLength` (Packet.c:94-103) of the packet at an offset of the buffer -/
def totLen (buf : List Nat) (off : Nat) : Nat := be16 buf (off + 2)

/-- `GetEncapsulationUdpDataLength` (Packet.c:238-241): a `u_int16_t` -/
def udpLen (buf : List Nat) (off : Nat) : Nat := (totLen buf off + 8) % 65536

/-- The loop of `BmfPacketCaptured` over the interfaces (Bmf.c:506-623); the packet is at
offset 8.  `neighbour` is `isFromOlsrNeighbor`, `outgoing` is
`sllPkttype == PACKET_OUTGOING`. -/
def captureLoop (env : Env) (ifs : List Intf) (intf : Intf) (neighbour mpr outgoing : Bool)
    (buf : List Nat) : List Send :=
  ifs.flatMap fun w =>
    if intf.olsr && w.olsr then
      if neighbour && !mpr then []
      else if outgoing && intf.id == w.id then []
      else [.encap w.id 0 (udpLen buf 8) (choose env w.addr none none none)]
    else if intf.olsr && !w.olsr then [.raw w.id 8 (totLen buf 8)]
    else if !intf.olsr && w.olsr then [.encap w.id 0 (udpLen buf 8) (choose env w.addr none none none)]
    else if intf.id == w.id then []
    else [.raw w.id 8 (totLen buf 8)]

/-- `BmfPacketCaptured` (Bmf.c:401-624) for a captured packet of `n` bytes at offset 8 of
the buffer, after the checks of `BMF_handle_captureFd` (Bmf.c:943-958) and of the
destination, fragment and port (Bmf.c:431-449), which are given as `eligible`.
`crc` is the fingerprint (model in `CrcModel`). -/
def captured (env : Env) (ifs : List Intf) (intf : Intf) (neighbour mpr outgoing eligible : Bool)
    (now crc n : Nat) (buf : List Nat) (t : Hist.Table) : Hist.Table × List Send :=
  if n < 20 then (t, [])
  else if !eligible then (t, [])
  else if (Hist.checkAndMark now crc t).2 then ((Hist.checkAndMark now crc t).1, [])
  else ((Hist.checkAndMark now crc t).1, captureLoop env ifs intf (intf.olsr && neighbour) mpr outgoing buf)

/-- `ntohl(encapsulationHdr->crc32)`, bytes 4 to 7 of the encapsulation header -/
def hdrCrc (buf : List Nat) : Nat := be16 buf 4 * 65536 + be16 buf 6

/-- the format test (Bmf.c:699-701); `reserved` is compared before `ntohs` is applied to
the outcome, which makes no difference -/
def hdrOk (buf : List Nat) : Bool := buf.getD 0 0 == 1 && buf.getD 1 0 == 6 && be16 buf 2 == 0

/-- a 32-bit address at an offset -/
def addr32 (buf : List Nat) (i : Nat) : Nat := be16 buf i * 65536 + be16 buf (i + 2)

/-- The loop of `BmfEncapsulationPacketReceived` over the interfaces (Bmf.c:767-815). -/
def encapLoop (env : Env) (ifs : List Intf) (mpr : Bool) (by_ : Nat) (to_ : Option Nat)
    (buf : List Nat) : List Send :=
  ifs.flatMap fun w =>
    if !w.olsr then [.raw w.id 8 (totLen buf 8)]
    else if mpr then [.encap w.id 0 (udpLen buf 8) (choose env w.addr (some (addr32 buf 20)) (some by_) to_)]
    else []

/-- `BMF_handle_encapsulatingFd` (Bmf.c:1063-1117) and `BmfEncapsulationPacketReceived`
(Bmf.c:642-816): `n` bytes received at the start of the buffer, from `by_`; `own` is
`if_ifwithaddr(forwardedBy) != NULL`, `tun` tells whether local delivery is on. -/
def encapReceived (env : Env) (ifs : List Intf) (intf : Intf) (own mpr tun : Bool) (by_ : Nat) (to_ : Option Nat)
    (now n : Nat) (buf : List Nat) (t : Hist.Table) : Hist.Table × List Send :=
  if n < 28 then (t, [])
  else if own then (t, [])
  else if !intf.olsr then (t, [])
  else if !hdrOk buf then (t, [])
  else if (Hist.checkAndMark now (hdrCrc buf) t).2 then ((Hist.checkAndMark now (hdrCrc buf) t).1, [])
  else ((Hist.checkAndMark now (hdrCrc buf) t).1,
    (if tun then [.deliver 8 (totLen buf 8)] else []) ++ encapLoop env ifs mpr by_ to_ buf)

end Verif.Bmf
