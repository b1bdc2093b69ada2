/-!
# Model of the netlink requests of the Linux port

`src/linux/kernel_routes_nl.c:199-465, 502-609`.  The request is the memory of
`struct olsr_rtreq` (or `struct olsr_ipadd_req`) byte by byte, as a little-endian machine lays it
out: `nlmsghdr` (length 4, type 2, flags 2, sequence number 4, pid 4), then `rtmsg` (family,
dst_len, src_len, tos, table, protocol, scope, type, flags 4) or `ifaddrmsg` (family, prefixlen,
flags, scope, index 4), then the buffer for the attributes.  Constants are those of the kernel
headers.  The build for Android is not modelled.
-/

namespace Verif.Nl

/-- 16-bit number in memory -/
def le16 (x : Nat) : List Nat := [x % 256, x / 256 % 256]

/-- 32-bit number in memory -/
def le32 (x : Nat) : List Nat := [x % 256, x / 256 % 256, x / 65536 % 256, x / 16777216 % 256]

/-- reading a 32-bit number -/
def rd32 (m : List Nat) (i : Nat) : Nat :=
  m.getD i 0 + m.getD (i + 1) 0 * 256 + m.getD (i + 2) 0 * 65536 + m.getD (i + 3) 0 * 16777216

/-- a store to the bytes from `i` on, inside the memory -/
def put (m : List Nat) (i : Nat) (d : List Nat) : List Nat := m.take i ++ d ++ m.drop (i + d.length)

/-- `NLMSG_ALIGN` -/
def align4 (x : Nat) : Nat := (x + 3) / 4 * 4

/-- `olsr_netlink_addreq` (kernel_routes_nl.c:199-209): the length is stored first, then type, length and
data of the attribute.  `none`: a store behind the request (the check is commented out). -/
def addreq (m : List Nat) (type : Nat) (data : List Nat) : Option (List Nat) :=
  if align4 (rd32 m 0) + 4 + data.length ≤ m.length then
    some (put (put (put (put m 0 (le32 (align4 (rd32 m 0) + 4 + data.length)))
      (align4 (rd32 m 0) + 2) (le16 type)) (align4 (rd32 m 0)) (le16 (4 + data.length)))
      (align4 (rd32 m 0) + 4) data)
  else none

/-- the arguments of `olsr_new_netlink_route`; addresses are the 16 bytes of
`union olsr_ip_addr`; `metric` is an `int` -/
structure Req where
  family : Nat
  table : Nat
  flags : Nat
  scope : Nat
  ifIndex : Nat
  metric : Int
  protocol : Nat
  src : Option (List Nat)
  gw : Option (List Nat)
  dst : List Nat
  plen : Nat
  set : Bool
  similar : Bool
  blackhole : Bool
deriving DecidableEq, Repr

/-- `family_size` (kernel_routes_nl.c:363) -/
def Req.size (p : Req) : Nat := if p.family = 2 then 4 else 16

/-- `addreq` under a condition -/
def addIf (c : Bool) (type : Nat) (data : List Nat) (m : List Nat) : Option (List Nat) :=
  if c then addreq m type data else some m

/-- the table (kernel_routes_nl.c:365-380): the attribute for large table numbers is added while the
length of the message is still zero -/
def tablePart (p : Req) : Option (List Nat) :=
  let m := put (put (List.replicate 1052 0) 24 (le32 p.flags)) 16 [p.family]
  if p.table < 256 then some (put m 20 [p.table]) else addreq (put m 20 [0]) 15 (le32 p.table)

/-- the fixed part (kernel_routes_nl.c:380-413) -/
def fixedPart (p : Req) (m : List Nat) : List Nat :=
  let m := put m 0 (le32 28)
  let m := put m 6 (le16 (if p.set then 1285 else 5))
  let m := put m 4 (le16 (if p.set then 24 else 25))
  let m := put m 23 [if p.blackhole then 6 else 1]
  let m := put m 17 [p.plen % 256]
  let m := if p.set then put m 21 [p.protocol % 256] else m
  put m 22 [if !p.set && p.similar then 255 else p.scope]

/-- the gateway (kernel_routes_nl.c:430-443): `RTNH_F_ONLINK` is bit 2 -/
def gatewayPart (p : Req) (m : List Nat) : Option (List Nat) :=
  match p.gw with
  | some g => addreq m 5 (g.take p.size)
  | none =>
    if p.plen = 32 then addreq m 5 (p.dst.take p.size)
    else some (put m 24 (le32 (rd32 m 24 - rd32 m 24 / 4 % 2 * 4)))

/-- `olsr_new_netlink_route` (kernel_routes_nl.c:347-446) up to sending -/
def route (p : Req) : Option (List Nat) :=
  (tablePart p).bind fun m =>
  (addIf ((p.set || !p.similar) && !p.blackhole) 4 (le32 p.ifIndex) (fixedPart p m)).bind fun m =>
  (addIf (p.set && p.src.isSome) 7 ((p.src.getD []).take p.size) m).bind fun m =>
  (addIf (decide (0 ≤ p.metric)) 6 (le32 p.metric.toNat) m).bind fun m =>
  (gatewayPart p m).bind fun m =>
  addreq m 1 (p.dst.take p.size)

/-- what `olsr_netlink_send` hands to the kernel (kernel_routes_nl.c:233-235) -/
def sent (m : List Nat) : List Nat := m.take (rd32 m 0)

/-- `olsr_os_policy_rule` (kernel_routes_nl.c:275-296) up to sending; `ifName` without the
terminating zero -/
def rule (family table priority : Nat) (ifName : Option (List Nat)) (set : Bool) : Option (List Nat) :=
  let m := put (List.replicate 1052 0) 0 (le32 28)
  let m := put m 6 (le16 1541)
  let m := put m 4 (le16 (if set then 32 else 33))
  let m := put m 16 [family % 256]
  let m := put m 20 [table % 256]
  let m := put m 23 [1]
  (addreq m 6 (le32 priority)).bind fun m =>
  match ifName with
  | none => some m
  | some n => addreq m 3 (n ++ [0])

/-- `olsr_add_ip` (kernel_routes_nl.c:307-333) up to sending; `ipsize` is 4 or 16,
`family` is `olsr_cnf->ip_version` -/
def addIp (ipsize family ifIndex : Nat) (ip : List Nat) (label : Option (List Nat)) (create : Bool) :
    Option (List Nat) :=
  let m := put (List.replicate 280 0) 0 (le32 24)
  let m := put m 6 (le16 (if create then 1285 else 5))
  let m := put m 4 (le16 (if create then 20 else 21))
  let m := put m 16 [family % 256]
  (addreq m 2 (ip.take ipsize)).bind fun m =>
  (match label with
   | none => some m
   | some l => addreq m 3 (l ++ [0])).bind fun m =>
  some (put (put m 17 [ipsize * 8]) 20 (le32 ifIndex))

/-! ## Sending and waiting for the answer -/

/-- how the two system calls of `olsr_netlink_send` end -/
inductive Io where
  | sendFails
  | recvFails
  | works
deriving DecidableEq, Repr

/-- `olsr_netlink_send` (kernel_routes_nl.c:212-273): the kernel answers every request with an error number
(0 or `-errno`) that waits in the socket; the first waiting answer is read, whatever
its sequence number.  Malformed answers are not modelled. -/
def send (q : List Int) (ans : Int) (io : Io) : List Int × Int :=
  match io with
  | .sendFails => (q, -1)
  | .recvFails => (q ++ [ans], -1)
  | .works =>
    match q ++ [ans] with
    | [] => (q, -1)
    | a :: r => (r, -a)

/-! ## Routes and errors -/

/-- configuration that matters for a route -/
structure Cfg where
  flat : Bool
  metricDefault : Int
  smartGw : Bool
  table : Nat
  tableDefault : Nat
  proto : Nat
  ipsize : Nat
  srcIp : Option (List Nat)
deriving DecidableEq, Repr

/-- `struct rt_entry`, as far as used; `best` is the next hop, interface and hop count of `rt_best`
(null pointer: `none`), `inst` those that were stored with the entry -/
structure Rt where
  dst : List Nat
  plen : Nat
  inetgw : Bool
  best : Option (List Nat × Nat × Nat)
  inst : List Nat × Nat × Nat
deriving DecidableEq, Repr

/-- the next hop (kernel_routes_nl.c:527-533) -/
def nexthop (r : Rt) (set : Bool) : List Nat × Nat × Nat :=
  match r.best with
  | some b => if set then b else r.inst
  | none => r.inst

/-- `metric` (kernel_routes_nl.c:510-521); `none`: null pointer -/
def metric (c : Cfg) (r : Rt) (set : Bool) : Option Int :=
  let base : Option Int :=
    if c.flat then some c.metricDefault
    else if set then r.best.map (fun b => (b.2.2 : Int)) else some (r.inst.2.2 : Int)
  base.map (fun m => if c.smartGw && r.inetgw then m + 2 else m)

/-- `table` (kernel_routes_nl.c:523-525) -/
def table (c : Cfg) (r : Rt) : Nat := if r.inetgw then c.tableDefault else c.table

/-- `hostRoute` (kernel_routes_nl.c:535-537); `ipequal` compares `ipsize` bytes -/
def hostRoute (c : Cfg) (r : Rt) (set : Bool) : Bool :=
  decide (r.plen = c.ipsize * 8) && decide ((nexthop r set).1.take c.ipsize = r.dst.take c.ipsize)

/-- the request for the route itself (kernel_routes_nl.c:548-549, and again :561, :602) -/
def mainReq (c : Cfg) (family : Nat) (r : Rt) (set : Bool) (metric : Int) : Req :=
  ⟨family, table c r, 4, 0, (nexthop r set).2.1, metric, c.proto, c.srcIp,
   if hostRoute c r set then none else some (nexthop r set).1, r.dst, r.plen, set, false, false⟩

/-- the fuzzy deletion (kernel_routes_nl.c:557) -/
def fuzzyReq (c : Cfg) (family : Nat) (r : Rt) : Req :=
  ⟨family, table c r, 4, 0, 0, 0, 255, none, none, r.dst, r.plen, false, true, false⟩

/-- the host route to the gateway (kernel_routes_nl.c:594-599) -/
def gatewayReq (c : Cfg) (family : Nat) (r : Rt) (set : Bool) (metric : Int) : Req :=
  ⟨family, c.table, 4, 0, (nexthop r set).2.1, metric, c.proto, c.srcIp, none, (nexthop r set).1, c.ipsize * 8,
   true, false, false⟩

/-- `olsr_os_process_rt_entry` (kernel_routes_nl.c:502-609) with the result of the first, second and third
call of `olsr_new_netlink_route` given: the calls made and the returned value.  `none`: null
pointer. -/
def process (c : Cfg) (family : Nat) (r : Rt) (set : Bool) (e1 e2 e3 : Int) : Option (List Req × Int) :=
  match metric c r set with
  | none => none
  | some m =>
    if set && decide (e1 = 17) then
      if e2 = 0 then some ([mainReq c family r set m, fuzzyReq c family r, mainReq c family r set m], e3)
      else some ([mainReq c family r set m, fuzzyReq c family r], e2)
    else if !set && decide (e1 = 3) then some ([mainReq c family r set m], 0)
    else if !hostRoute c r set && c.flat && (decide (e1 = 128) || decide (e1 = 101) || decide (e1 = 3)) then
      if e2 = 0 then some ([mainReq c family r set m, gatewayReq c family r set m, mainReq c family r set m], e3)
      else some ([mainReq c family r set m, gatewayReq c family r set m], e2)
    else some ([mainReq c family r set m], e1)

end Verif.Nl
