/-!
# Model of the rewriting of local broadcast packets

`CheckAndUpdateLocalBroadcast` (lib/bmf/src/NetworkInterfaces.c:1882-1940, identical in
lib/p2pd) replaces the destination of an IPv4 packet and corrects the IP and UDP
checksums incrementally.  A packet is a list of byte values; it is as long as the part
of the receive buffer behind it, so the accesses to the IP header and (with at most 60
header bytes) to the UDP header are inside it.
-/

namespace Verif.Cksum

/-- `ntohs` of the two bytes at an offset -/
def be16 (p : List Nat) (i : Nat) : Nat := 256 * p.getD i 0 + p.getD (i + 1) 0

/-- storing `htons(v)` at an offset -/
def put16 (p : List Nat) (i v : Nat) : List Nat := (p.set i (v / 256)).set (i + 1) (v % 256)

/-- `~ x` for `u_int32_t` -/
def not32 (x : Nat) : Nat := 4294967295 - x

/-- `x - y` for `u_int32_t` -/
def sub32 (x y : Nat) : Nat := (x + 4294967296 - y) % 4294967296

/-- `x + y` for `u_int32_t` -/
def add32 (x y : Nat) : Nat := (x + y) % 4294967296

/-- The new checksum (NetworkInterfaces.c:1902-1910 and 1922-1934): `check` is the old
one, `o1 o2` and `n1 n2` are the halves of the old and the new destination address; the
assignment through `htons` keeps the low 16 bits. -/
def update (check o1 o2 n1 n2 : Nat) : Nat :=
  let c1 := not32 (add32 (sub32 (not32 check) o1) n1)
  let c2 := not32 (add32 (sub32 (not32 c1) o2) n2)
  add32 c2 (c2 / 65536) % 65536

/-- `IN_MULTICAST` of the destination address (lib/bmf/src/Address.c, `IsMulticast`) -/
def isMulticast (p : List Nat) : Bool := p.getD 16 0 / 16 == 14

/-- `GetIpHeaderLength` (lib/bmf/src/Packet.c:113-121) -/
def ihl (p : List Nat) : Nat := p.getD 0 0 % 16 * 4

/-- the part of the function that concerns the IP header: destination (bytes 16 to 19)
and header checksum (bytes 10, 11), NetworkInterfaces.c:1896-1910 -/
def rewriteIp (p : List Nat) (n1 n2 : Nat) : List Nat :=
  put16 (put16 (put16 p 16 n1) 18 n2) 10 (update (be16 p 10) (be16 p 16) (be16 p 18) n1 n2)

/-- `CheckAndUpdateLocalBroadcast` (NetworkInterfaces.c:1882-1940) with the broadcast
address `n1 n2` (two 16-bit halves).  `SOL_UDP` is 17; the UDP checksum is at offset 6
of the UDP header. -/
def rewrite (p : List Nat) (n1 n2 : Nat) : List Nat :=
  if isMulticast p then p
  else if p.getD 9 0 = 17 then
    put16 (rewriteIp p n1 n2) (ihl p + 6)
      (update (be16 (rewriteIp p n1 n2) (ihl p + 6)) (be16 p 16) (be16 p 18) n1 n2)
  else rewriteIp p n1 n2

end Verif.Cksum
