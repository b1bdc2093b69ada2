/-
Model of the messages of the pud plugin: how a position update is laid out in memory
(/repo/lib/pud/src/gpsConversion.c, wireformat/src/wireFormat.c), the uplink datagram
(receiver.c), how datagrams from the downlink are taken apart (pud.c), the list of
recent messages (dedup.c), and what this does to forwarding (src/parser.c, src/olsr.c).

Simplifications: memory is a function from addresses to bytes.  The contents of the
fixed part of a position update (see C123) and of a node id (see C124) are parameters.  The flag for IPv6 is the
lowest bit of its byte (little endian).
-/
namespace Verif.PudMsg

/-! ### Position updates -/

/-- Writing bytes to memory. -/
def put (m : Nat → Nat) (off : Nat) (b : List Nat) : Nat → Nat :=
  fun i => if off ≤ i ∧ i < off + b.length then b.getD (i - off) 0 else m i

/-- Node ids as `setPositionUpdateNodeInfo` distinguishes them: the address of the node,
which is not put into the message; bytes; or a name with its terminating zero, which is
followed by a zero byte that is not counted. -/
inductive Id where
  | address (typ : Nat)
  | bytes (typ : Nat) (b : List Nat)
  | name (b : List Nat)

/-- wireFormat.c 832-899: what `setPositionUpdateNodeInfo` returns. -/
def nodeLength : Id → Nat
  | .address _ => 0
  | .bytes _ b => 1 + b.length
  | .name b => 1 + b.length

/-- gpsConversion.c 326-330: the size without the header of the message. -/
def aligned (id : Id) : Nat :=
  if (21 + nodeLength id) % 4 ≠ 0 then 21 + nodeLength id + (4 - (21 + nodeLength id) % 4)
  else 21 + nodeLength id

/-- wireFormat.c 832-899: the node information behind the fixed part of 21 bytes. -/
def putId (m : Nat → Nat) : Id → (Nat → Nat)
  | .address typ => put m 21 [typ]
  | .bytes typ b => put (put m 21 [typ]) 22 b
  | .name b => put (put (put m 21 [3]) 22 b) (22 + b.length) [0]

/-- gpsConversion.c 369-373: the padding. -/
def pad (m : Nat → Nat) (id : Id) : Nat → Nat :=
  if (21 + nodeLength id) % 4 ≠ 0 then
    put m (22 + nodeLength id) (List.replicate (4 - (21 + nodeLength id) % 4) 0)
  else m

/-- gpsConversion.c 257-376 `gpsToOlsr`: the payload in memory. -/
def payload (old : Nat → Nat) (fixed : List Nat) (id : Id) : Nat → Nat :=
  pad (putId (put (put old 0 (List.replicate 23 0)) 0 fixed) id) id

/-! ### Uplink and downlink -/

/-- receiver.c 276-282, wireFormat.h 389-395: the header of a message in a datagram. -/
def header (typ len : Nat) (v6 : Bool) : List Nat :=
  [typ, len / 256 % 256, len % 256, if v6 then 1 else 0]

/-- receiver.c 241-312: the datagram to the uplink. -/
def uplink (v6 : Bool) (update leader : List Nat) : List Nat :=
  header 0 update.length v6 ++ update ++ (header 1 leader.length v6 ++ leader)

/-- Reading bytes from memory. -/
def read (mem : Nat → Nat) (off len : Nat) : List Nat := (List.range len).map (fun i => mem (off + i))

/-- The length field of the header at `idx`. -/
def lenAt (mem : Nat → Nat) (idx : Nat) : Nat := 256 * mem (idx + 1) + mem (idx + 2)

/-- pud.c 244, a `uint16_t`. -/
def upLen (mem : Nat → Nat) (idx : Nat) : Nat := (lenAt mem idx + 4) % 65536

/-- pud.c 255-267: whether the message at `idx` is used. -/
def wanted (v6 : Bool) (mem : Nat → Nat) (idx : Nat) : Bool :=
  mem idx == 0 && (decide (mem (idx + 3) % 2 = 1) == v6)

/-- pud.c 234-301, the loop of `packetReceivedFromDownlink`: the messages that are passed
on, as places and lengths.  `count` bytes of `mem` have been received.  `none` means
that the loop has not ended within `fuel` rounds. -/
def loop (v6 : Bool) (mem : Nat → Nat) (count : Nat) : Nat → Nat → Option (List (Nat × Nat))
  | 0, _ => none
  | fuel + 1, idx =>
    if idx < count then
      if count < idx + upLen mem idx then some []
      else if wanted v6 mem idx then
        (loop v6 mem count fuel (idx + upLen mem idx)).map (fun r => (idx + 4, lenAt mem idx) :: r)
      else loop v6 mem count fuel (idx + upLen mem idx)
    else some []

/-! ### The list of recent messages -/

/-- A message: originator and sequence number. -/
abbrev Key := Nat × Nat

/-- dedup.h 70-78, dedup.c 77-101: the ring. -/
structure Ring where
  size : Nat
  slot : Nat → Key
  newest : Nat
  count : Nat

/-- dedup.c 77-101: `initDeDupList` for a size that is not 0; `junk` is the contents of
the memory. -/
def initRing (size : Nat) (junk : Nat → Key) : Ring := ⟨size, junk, 0, 0⟩

/-- dedup.c 61: `INCOMINGINDEX`. -/
def incoming (r : Ring) : Nat := (r.newest + r.size - 1) % r.size

/-- dedup.c 130-152: `addToDeDup`. -/
def addRing (r : Ring) (x : Key) : Ring :=
  { r with
    slot := fun i => if i = incoming r then x else r.slot i
    newest := incoming r
    count := if r.count < r.size then r.count + 1 else r.count }

/-- dedup.c 178-198: the loop of `isInDeDupList`. -/
def inRing (r : Ring) (x : Key) : Nat → Nat → Bool
  | 0, _ => false
  | n + 1, i => if r.slot i = x then true else inRing r x n ((i + 1) % r.size)

/-- dedup.c 167-201: `isInDeDupList`. -/
def isRecent (r : Ring) (x : Key) : Bool := inRing r x r.count r.newest

/-- pud.c 190-196: a message that is not recent is remembered. -/
def filter (r : Ring) (x : Key) : Bool × Ring :=
  if isRecent r x then (false, r) else (true, addRing r x)

/-! ### Forwarding -/

/-- A copy of a message that arrives: which message, whether the sender has chosen this
node as its relay, and whether the message can be turned into a text (version and
length, gpsConversion.c 109-115, 211-216). -/
structure Copy where
  key : Key
  selector : Bool
  showable : Bool

/-- State of the node: the ring, and the messages that have been forwarded. -/
structure Node where
  ring : Ring
  sent : List Key

/-- pud.c 175-209 `packetReceivedFromOlsr`: the result and the new ring. -/
def receive (dedup : Bool) (r : Ring) (c : Copy) : Bool × Ring :=
  if dedup then
    if (filter r c.key).1 then (c.showable, (filter r c.key).2) else (false, r)
  else (c.showable, r)

/-- src/parser.c 389-405 and src/olsr.c `olsr_forward_message` (see C14): forwarded is
what the plugin has accepted, from a sender that has chosen this node, once. -/
def forwards (dedup : Bool) (n : Node) (c : Copy) : Bool :=
  (receive dedup n.ring c).1 && c.selector && !(n.sent.contains c.key)

/-- One copy. -/
def arrive (dedup : Bool) (n : Node) (c : Copy) : Node :=
  ⟨(receive dedup n.ring c).2, if forwards dedup n c then c.key :: n.sent else n.sent⟩

end Verif.PudMsg
