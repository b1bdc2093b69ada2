/-!
# Model of the packet fingerprint of the multicast plug-ins

`lib/bmf/src/PacketHistory.c:73-173` and the helpers of `lib/bmf/src/Packet.c` it
calls (identical in `lib/p2pd`).  A packet is the list of the bytes that can be read
from `ipPacket` on, that is, up to the end of the receive buffer.
-/

namespace Verif.Crc

/-- `CRC32_POLYNOMIAL` (PacketHistory.c:84) -/
def poly : BitVec 32 := 0xedb88320#32

/-- the body of the inner loop of `GenerateCrc32Table` (PacketHistory.c:97-104) -/
def bitStep (crc : BitVec 32) : BitVec 32 :=
  if crc &&& 1#32 ≠ 0#32 then (crc >>> 1) ^^^ poly else crc >>> 1

/-- `n` rounds of that loop -/
def bitSteps : Nat → BitVec 32 → BitVec 32
  | 0, crc => crc
  | n + 1, crc => bitSteps n (bitStep crc)

/-- `CrcTable[i]` as filled by `GenerateCrc32Table` (PacketHistory.c:88-107).  The
table has elements of type `unsigned long`; every element is below `2^32`. -/
def table (i : BitVec 8) : BitVec 32 := bitSteps 8 (i.zeroExtend 32)

/-- the loop body of `CalcCrc32` (PacketHistory.c:124-125); the index is below 256
because both operands of the exclusive or are. -/
def byteStep (crc : BitVec 32) (b : BitVec 8) : BitVec 32 :=
  (crc >>> 8) ^^^ table (crc.truncate 8 ^^^ b)

/-- `CalcCrc32` (PacketHistory.c:118-129) over the given bytes -/
def calcCrc (bytes : List (BitVec 8)) : BitVec 32 :=
  bytes.foldl byteStep 0xffffffff#32 ^^^ 0xffffffff#32

/-- What `PacketCrc32` does. -/
inductive Out where
  /-- the fingerprint, and the packet bytes afterwards -/
  | done (crc : BitVec 32) (packet : List (BitVec 8))
  /-- `assert(len > 0)` fails (only in builds with `DEBUG=1`, Makefile.inc:327-335) -/
  | abort
  /-- an access outside the bytes that exist -/
  | outside
deriving DecidableEq

/-- overwriting the TTL (byte 8) and the header checksum (bytes 10 and 11) of the IP
header, PacketHistory.c:165-167 and `RestoreTtlAndChecksum` (Packet.c:172-181). -/
def patch (ttl c0 c1 : BitVec 8) (p : List (BitVec 8)) : List (BitVec 8) :=
  ((p.set 8 ttl).set 10 c0).set 11 c1

/-- `PacketCrc32` (PacketHistory.c:140-173).  `debug` tells whether assertions are
compiled in; `len` is the length argument (the IP total length, never negative).
`SaveTtlAndChecksum` (Packet.c:151-160) and `RestoreTtlAndChecksum` turn the checksum
to host order and back, which gives the bytes back unchanged. -/
def packetCrc (debug : Bool) (p : List (BitVec 8)) (len : Nat) : Out :=
  if debug && len == 0 then .abort
  else
    match p[8]?, p[10]?, p[11]? with
    | some ttl, some c0, some c1 =>
      if min len 256 ≤ p.length then
        .done (calcCrc ((patch 0xff 0x5a 0x5a p).take (min len 256)))
          (patch ttl c0 c1 (patch 0xff 0x5a 0x5a p))
      else .outside
    | _, _, _ => .outside

end Verif.Crc
