/-
Model of the packet path of the mdns plugin, /repo/lib/mdns/src/mdns.c: a packet
captured on a LAN is put into an olsr message (`DoMDNS`, `BmfPacketCaptured`,
`olsr_mdns_gen`), and the packet of a received message is sent into the LANs
(`olsr_parser`, `PacketReceivedFromOLSR`).

Simplifications: memory is a list of byte values; the machine is little-endian;
queueing the message on the olsr interfaces (mdns.c 286-296) is left out, as is
the choice of the link-layer destination (176).  An IPv4 packet is captured only by
a daemon that runs with IPv4, an IPv6 packet only by one that runs with IPv6.
-/
namespace Verif.Mdns

/-- The byte at an offset. -/
def b (m : List Nat) (i : Nat) : Nat := m.getD i 0

/-- `ntohs` of the 16-bit field at an offset. -/
def be16 (m : List Nat) (i : Nat) : Nat := 256 * b m i + b m (i + 1)

/-- The 16-bit field at an offset as the (little-endian) machine reads it. -/
def le16 (m : List Nat) (i : Nat) : Nat := b m i + 256 * b m (i + 1)

/-- Storing a 16-bit value on a little-endian machine. -/
def putLe (m : List Nat) (i v : Nat) : List Nat := (m.set i (v % 256)).set (i + 1) (v / 256)

/-- The loop of mdns.c 97-101: the sum of `n` 16-bit words. -/
def leSum (m : List Nat) : Nat → Nat
  | 0 => 0
  | n + 1 => leSum m n + le16 m (2 * n)

/-- mdns.c 102-104: folding the sum and inverting it, as a 16-bit value. -/
def fold16 (sum : Nat) : Nat :=
  65535 - ((sum / 65536 + sum % 65536) + (sum / 65536 + sum % 65536) / 65536) % 65536

/-- `ip_hl`, the low half of the first byte. -/
def hl (m : List Nat) : Nat := b m 0 % 16

/-- `(data[0] & 0xf0) >> 4` -/
def version (m : List Nat) : Nat := b m 0 / 16

/-- mdns.c 149-152 with 90-105: the header checksum is set to zero, computed over
`ip_hl * 4` bytes and stored. -/
def recompute (m : List Nat) : List Nat :=
  putLe (putLe m 10 0) 10 (fold16 (leSum (putLe m 10 0) (2 * hl (putLe m 10 0))))

/-- The changes made to the packet in one turn of the loop (mdns.c 143-159). -/
def edit (ttlCheck : Bool) (m : List Nat) : List Nat :=
  if version m = 4 then recompute (if ttlCheck then m.set 8 1 else m)
  else if version m = 6 then (if ttlCheck then (recompute m).set 7 1 else recompute m)
  else recompute m

/-- `stripped_len` (mdns.c 145, 156), from the packet as it was on entering this
turn of the loop; otherwise it keeps its value. -/
def strip (old : Nat) (m : List Nat) : Nat :=
  if version m = 4 then be16 m 2
  else if version m = 6 then 40 + be16 (recompute m) 4
  else old

/-- mdns.c 116-195: `PacketReceivedFromOLSR`.  `m` is all the memory from the
beginning of the packet on, `ifs` is for each LAN interface whether this router
is the master there, `old` is `stripped_len`.  The result is the list of packets
sent (one for each interface, in order) and the memory afterwards; `none` is an
access behind the end of the memory. -/
def unpack (ttlCheck : Bool) : List Bool → Nat → List Nat → Option (List (List Nat) × List Nat)
  | [], _, m => some ([], m)
  | act :: ifs, old, m =>
    if m.length < 12 ∨ m.length < 4 * hl m then none
    else if strip old m = 0 then some ([], edit ttlCheck m)
    else if act = false then some ([], edit ttlCheck m)
    else if m.length < strip old m then none
    else (unpack ttlCheck ifs (strip old m) (edit ttlCheck m)).map
      (fun r => ((edit ttlCheck m).take (strip old m) :: r.1, r.2))

/-- What the configuration and the neighbourhood decide for a received message. -/
structure Peer where
  v6 : Bool
  own : List Nat
  sym : Bool
  deriving DecidableEq, Repr

/-- Length of the message header: 12 bytes and, for IPv6, a longer originator. -/
def hdrLen (v6 : Bool) : Nat := if v6 then 24 else 12

/-- mdns.c 198-233: `olsr_parser`; `m` is the memory from the beginning of the
message on.  The result is whether the message is forwarded to other nodes, and
what is sent into the LANs. -/
def parser (p : Peer) (ttlCheck : Bool) (ifs : List Bool) (m : List Nat) :
    Option (Bool × List (List Nat)) :=
  if (m.drop 4).take (if p.v6 then 16 else 4) = p.own then some (false, [])
  else if p.sym = false then some (false, [])
  else (unpack ttlCheck ifs 0 (m.drop (hdrLen p.v6))).map (fun r => (true, r.1))

/-- Length rounded up to a multiple of four (mdns.c 245-249). -/
def aligned (n : Nat) : Nat := if n % 4 ≠ 0 then n - n % 4 + 4 else n

/-- mdns.c 235-283: `olsr_mdns_gen`; a byte is `none` if the buffer on the stack
has not been written there.  The validity time, the message TTL and the sequence
number are given by `vtime`, `ttl` and `seq`. -/
def gen (v6 : Bool) (own : List Nat) (vtime ttl seq : Nat) (pkt : List Nat) : List (Option Nat) :=
  (([132, vtime] ++
      (if v6 then [(aligned pkt.length + 12 + 96) / 256 % 256, (aligned pkt.length + 12 + 96) % 256]
       else [(aligned pkt.length + 12) / 256 % 256, (aligned pkt.length + 12) % 256]) ++
      own ++ [ttl, 0, seq / 256 % 256, seq % 256] ++
      pkt ++ List.replicate (aligned pkt.length - pkt.length) 0).map some) ++
    (if v6 then List.replicate 84 none else [])

/-- What may come of a captured packet: nothing, a message with it, or a decision
that depends on bytes nobody has written. -/
inductive Cap where
  | drop
  | send (pkt : List Nat)
  | undef
  deriving DecidableEq, Repr

/-- mdns.c 390-422 for IPv4 and Address.c 77-83 (`IN_MULTICAST`): is the source
in the list of filtered hosts, is the destination a multicast address? -/
def filtered (hosts : List (List Nat)) (src : List Nat) : Bool := hosts.contains src

/-- mdns.c 438-539: `BmfPacketCaptured` for a packet of `pkt.length` bytes. -/
def captured (ttlCheck : Bool) (hosts : List (List Nat)) (pkt : List Nat) : Cap :=
  if version pkt = 4 then
    if b pkt 16 / 16 ≠ 14 then .drop
    else if b pkt 9 ≠ 17 then .drop
    else if pkt.length < 4 * hl pkt + 4 then .undef
    else if be16 pkt (4 * hl pkt + 2) ≠ 5353 then .drop
    else if ttlCheck = true ∧ b pkt 8 ≤ 1 then .drop
    else if filtered hosts ((pkt.drop 12).take 4) then .drop
    else .send pkt
  else if version pkt = 6 then
    if pkt.length < 25 then .undef
    else if b pkt 24 ≠ 255 then .drop
    else if b pkt 6 ≠ 17 then .drop
    else if pkt.length < 44 then .undef
    else if be16 pkt 42 ≠ 5353 then .drop
    else if ttlCheck = true ∧ b pkt 7 ≤ 1 then .drop
    else if hosts ≠ [] then .undef
    else .send pkt
  else .drop

/-- The outcome of `DoMDNS`. -/
inductive Rx where
  | done (c : Cap)
  /-- `recvfrom` writes behind the end of `rxBuffer` -/
  | overflow
  deriving DecidableEq, Repr

/-- mdns.c 550-611: `DoMDNS` for a frame with the IP packet `frame` of packet
type `ptype` (1 broadcast, 2 multicast, 4 outgoing), captured on socket `skfd`.
`ifs` are the capturing sockets of the interfaces with `isActive`.  The buffer
has 2048 bytes, the packet is received 8 bytes behind its start, and up to 2048
bytes of it (`GetIpPacket`, Packet.c 222-234). -/
def doMdns (ttlCheck : Bool) (hosts : List (List Nat)) (ifs : List (Nat × Bool)) (skfd ptype : Nat)
    (frame : List Nat) : Rx :=
  if 2040 < frame.length then .overflow
  else if frame.length < 20 then .done .drop
  else if ifs.any (fun i => i.1 == skfd && !i.2) then .done .drop
  else if ptype = 4 ∨ ptype = 2 ∨ ptype = 1 then .done (captured ttlCheck hosts frame)
  else .done .drop

end Verif.Mdns
