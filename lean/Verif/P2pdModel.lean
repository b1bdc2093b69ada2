/-
Model of the packet path of the p2pd plugin, /repo/lib/p2pd/src/p2pd.c: a UDP
packet to a configured destination that is captured on a LAN is put into an olsr
message (`DoP2pd`, `P2pdPacketCaptured`, `olsr_p2pd_gen`), and the packet of a
received message is sent into the LANs (`olsr_parser`, `PacketReceivedFromOLSR`).

Simplifications: memory is a list of byte values; queueing the message on the olsr
interfaces (p2pd.c 508-519) is left out; the table of recent packets
(PacketHistory.c) is a parameter `seen` that is asked with the bytes the CRC is
computed over; reading a header that is longer than the memory at hand is an
error, whatever is read of it.  Assertions are checked, which is the default
(Makefile.inc 51, 328-335).
-/
namespace Verif.P2pd

/-- The byte at an offset. -/
def b (m : List Nat) (i : Nat) : Nat := m.getD i 0

/-- `ntohs` of the 16-bit field at an offset. -/
def be16 (m : List Nat) (i : Nat) : Nat := 256 * b m i + b m (i + 1)

/-- Storing `htons` of a 16-bit value. -/
def put16 (m : List Nat) (i v : Nat) : List Nat := (m.set i (v / 256)).set (i + 1) (v % 256)

/-- `ip_hl`, the low half of the first byte. -/
def hl (m : List Nat) : Nat := b m 0 % 16

/-- `data[0] & 0xf0`, shifted. -/
def version (m : List Nat) : Nat := b m 0 / 16

/-- The parameters of the plugin (p2pd.c 91-97) and the address family.  The
destinations are (IPv6?, address, port). -/
structure Cfg where
  v6 : Bool
  ttlDec : Bool
  hash : Bool
  dests : List (Bool × List Nat × Nat)
  deriving DecidableEq, Repr

/-- p2pd.c 598-619: `InUdpDestPortList`. -/
def inList (c : Cfg) (fam : Bool) (addr : List Nat) (port : Nat) : Bool :=
  c.dests.any (fun d => d.1 == fam && d.2.1 == addr && d.2.2 == port)

/-- p2pd.c 645-649: the sum of `n` 16-bit words. -/
def wordSum (m : List Nat) : Nat → Nat
  | 0 => 0
  | n + 1 => wordSum m n + be16 m (2 * n)

/-- p2pd.c 651-655: one fold and the complement. -/
def fold1 (sum : Nat) : Nat := 65535 - (sum / 65536 + sum % 65536) % 65536

/-- p2pd.c 632-658: `recomputeIPv4HeaderChecksum`. -/
def recompute (m : List Nat) : List Nat :=
  put16 (put16 m 10 0) 10 (fold1 (wordSum (put16 m 10 0) (2 * hl (put16 m 10 0))))

/-- p2pd.c 1183-1188 and PacketHistory.c 140-169: the bytes the fingerprint is
computed over.  `GetIpPacket` (Packet.c 182-186) skips 8 bytes of a packet that
has no encapsulation header in front, so that the "length" is the field at offset
10 and the "time to live" and the "checksum" are the bytes at 16 and 18. -/
def area (m : List Nat) : List Nat :=
  ((((m.drop 8).set 8 0xFF).set 10 0x5A).set 11 0x5A).take (min 256 (be16 m 10))

/-- The outcome of the check for recent packets. -/
inductive Chk where
  | fresh
  | recent
  /-- `assert(len > 0)` fails (PacketHistory.c 157) -/
  | abort
  deriving DecidableEq, Repr

/-- p2pd.c 1170-1202: `check_and_mark_recent_packet`. -/
def check (c : Cfg) (seen : List Nat → Bool) (m : List Nat) : Chk :=
  if c.hash = false then .fresh
  else if be16 m 10 = 0 then .abort
  else if seen (area m) then .recent
  else .fresh

/-- What may come of a captured packet. -/
inductive Cap where
  | drop
  | send (pkt : List Nat)
  /-- the decision depends on bytes nobody has written -/
  | undef
  | abort
  deriving DecidableEq, Repr

/-- p2pd.c 771-790: the time to live is at offset `i`. -/
def travel (c : Cfg) (i : Nat) (v4 : Bool) (pkt : List Nat) : Cap :=
  if c.ttlDec = false then .send pkt
  else if b pkt i ≤ 1 then .drop
  else if v4 then .send (recompute (pkt.set i (b pkt i - 1)))
  else .send (pkt.set i (b pkt i - 1))

/-- p2pd.c 673-794: `P2pdPacketCaptured`; `stale` are the bytes of the buffer behind
the packet. -/
def captured (c : Cfg) (seen : List Nat → Bool) (stale pkt : List Nat) : Cap :=
  if version pkt = 4 then
    if b pkt 9 ≠ 17 then .drop
    else if be16 pkt 6 % 8192 ≠ 0 then .drop
    else match check c seen (pkt ++ stale) with
      | .abort => .abort
      | .recent => .drop
      | .fresh =>
        if pkt.length < 4 * hl pkt + 4 then .undef
        else if inList c false ((pkt.drop 16).take 4) (be16 pkt (4 * hl pkt + 2)) = false then .drop
        else travel c 8 true pkt
  else if version pkt = 6 then
    if pkt.length < 40 then .undef
    else if b pkt 24 ≠ 255 then .drop
    else if b pkt 6 ≠ 17 then .drop
    else match check c seen (pkt ++ stale) with
      | .abort => .abort
      | .recent => .drop
      | .fresh =>
        if pkt.length < 44 then .undef
        else if inList c true ((pkt.drop 24).take 16) (be16 pkt 42) = false then .drop
        else travel c 7 false pkt
  else .drop

/-- The outcome of `DoP2pd`. -/
inductive Rx where
  | done (c : Cap)
  /-- `recvfrom` writes behind the end of `rxBuffer` -/
  | overflow
  deriving DecidableEq, Repr

/-- p2pd.c 811-866: `DoP2pd` for a frame with the IP packet `frame` of packet type
`ptype` (1 broadcast, 2 multicast, 4 outgoing).  The buffer has 2048 bytes
(NetworkInterfaces.h 62), the packet is received 8 bytes behind its start, and up to
2048 bytes of it. -/
def doP2pd (c : Cfg) (seen : List Nat → Bool) (stale : List Nat) (ptype : Nat) (frame : List Nat) : Rx :=
  if 2040 < frame.length then .overflow
  else if frame.length < 20 then .done .drop
  else if ptype = 4 ∨ ptype = 2 ∨ ptype = 1 then .done (captured c seen stale frame)
  else .done .drop

/-- Length rounded up to a multiple of four (p2pd.c 478-482). -/
def aligned (n : Nat) : Nat := if n % 4 ≠ 0 then n - n % 4 + 4 else n

/-- `P2pdTtl ? P2pdTtl : MAX_TTL` in a byte (p2pd.c 490, 502). -/
def msgTtl (n : Nat) : Nat := if n = 0 then 255 else n % 256

/-- p2pd.c 470-506: `olsr_p2pd_gen`; a byte is `none` if the buffer on the stack has
not been written there.  `ttl` is the parameter `P2pdTtl`. -/
def gen (v6 : Bool) (own : List Nat) (vtime ttl seq : Nat) (pkt : List Nat) : List (Option Nat) :=
  (([132, vtime] ++
      (if v6 then [(aligned pkt.length + 12 + 96) / 256 % 256, (aligned pkt.length + 12 + 96) % 256]
       else [(aligned pkt.length + 12) / 256 % 256, (aligned pkt.length + 12) % 256]) ++
      own ++ [msgTtl ttl, 0, seq / 256 % 256, seq % 256] ++
      pkt ++ List.replicate (aligned pkt.length - pkt.length) 0).map some) ++
    (if v6 then List.replicate 84 none else [])

/-- p2pd.c 147-158: `stripped_len`. -/
def strip (m : List Nat) : Nat :=
  if version m = 4 then be16 m 2
  else if version m = 6 then 40 + be16 m 4
  else 0

/-- p2pd.c 175-204: the link-layer destination.  `IsMulticastv6` is always false
(Packet.c 147-153), and `dest` has been cleared. -/
def mac (c : Cfg) (m : List Nat) : List Nat :=
  if c.v6 then [0, 0, 0, 0, 0, 0]
  else if b m 16 / 16 = 14 then [0x01, 0x00, 0x5E, b m 17 % 128, b m 18, b m 19]
  else [255, 255, 255, 255, 255, 255]

/-- p2pd.c 206-253: is the packet one for a configured destination?
(`IsIpv6Fragment` is always false.) -/
def wanted (c : Cfg) (m : List Nat) : Bool :=
  if c.v6 then
    b m 6 == 17 && inList c true ((m.drop 24).take 16) (be16 m 42)
  else
    b m 9 == 17 && be16 m 6 % 8192 == 0 &&
      inList c false ((m.drop 16).take 4) (be16 m (4 * hl m + 2))

/-- The outcome of a received message: what is sent, to which link-layer address;
or an aborted daemon; or a read behind the end of the memory. -/
inductive Del where
  | done (out : List (List Nat × List Nat))
  | abort
  | beyond
  deriving DecidableEq, Repr

/-- p2pd.c 122-284: `PacketReceivedFromOLSR`; `m` is all the memory from the
beginning of the packet on, `nif` the number of LAN interfaces. -/
def deliver (c : Cfg) (seen : List Nat → Bool) (nif : Nat) (m : List Nat) : Del :=
  match check c seen m with
  | .abort => .abort
  | .recent => .done []
  | .fresh =>
    if nif = 0 ∨ strip m = 0 then .done []
    else if m.length < 20 ∨ m.length < (if c.v6 then 44 else 4 * hl m + 4) then .beyond
    else if wanted c m = false then .done []
    else if m.length < strip m then .beyond
    else .done (List.replicate nif (mac c m, m.take (strip m)))

/-- Length of the message header: 12 bytes and, for IPv6, a longer originator. -/
def hdrLen (v6 : Bool) : Nat := if v6 then 24 else 12

/-- p2pd.c 424-459: `olsr_parser`; `m` is the memory from the beginning of the
message on, `dup` what the filter for duplicate messages says.  The result is
whether the message is forwarded to other nodes, and what is sent into the LANs. -/
def parser (c : Cfg) (own : List Nat) (dup : Bool) (seen : List Nat → Bool) (nif : Nat)
    (m : List Nat) : Bool × Del :=
  if (m.drop 4).take (if c.v6 then 16 else 4) = own then (false, .done [])
  else if dup then (true, .done [])
  else (true, deliver c seen nif (m.drop (hdrLen c.v6)))

end Verif.P2pd
