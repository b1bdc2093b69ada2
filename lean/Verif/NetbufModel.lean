/-!
# Model of the output buffer of an interface (`src/net_olsr.c`, `struct olsr_netbuf` interfaces.h:112-118)

The buffer memory is a byte list of `bufsize` bytes; a write outside is `none` (undefined behaviour).
`olsr_malloc` never fails.  Packet transform functions of plugins (:379-381) are not part of this model
(the signing plugin is modelled separately); the socket call always takes the datagram (:386-409).
-/

namespace Verif.Netbuf

structure Buf where
  buff : List Nat          -- allocated memory
  maxsize : Int            -- int
  pending : Nat            -- int
  reserved : Nat           -- int
  seqnum : Nat             -- uint16_t olsr_seqnum of the interface
  sent : List (List Nat)   -- datagrams handed to the socket so far
deriving DecidableEq

/-- `memcpy(&m[pos], data, ...)` -/
def write (m : List Nat) (pos : Nat) (data : List Nat) : Option (List Nat) :=
  if pos + data.length ≤ m.length then some (m.take pos ++ data ++ m.drop (pos + data.length)) else none

/-- `net_add_buffer` (net_olsr.c:121-146) for an interface of the given MTU; allocated memory holds arbitrary
bytes `junk` (of the MTU's length) -/
def addBuffer (junk : List Nat) (seqnum : Nat) (sent : List (List Nat)) : Buf :=
  { buff := junk, maxsize := (junk.length : Int) - 4, pending := 0, reserved := 0, seqnum, sent }

/-- `net_reserve_bufspace` (net_olsr.c:182-192); result: return value 0 (true) or -1 -/
def reserve (b : Buf) (size : Nat) : Bool × Buf :=
  if (size : Int) > b.maxsize then (false, b)
  else (true, { b with reserved := size, maxsize := b.maxsize - size })

/-- `net_outbuffer_push` (net_olsr.c:219-230); result: return value, new buffer -/
def push (b : Buf) (data : List Nat) : Option (Nat × Buf) :=
  if ((b.pending + data.length : Nat) : Int) > b.maxsize then some (0, b)
  else (write b.buff (b.pending + 4) data).map fun m =>
    (data.length, { b with buff := m, pending := b.pending + data.length })

/-- `net_outbuffer_push_reserved` (net_olsr.c:242-253) -/
def pushReserved (b : Buf) (data : List Nat) : Option (Nat × Buf) :=
  if ((b.pending + data.length : Nat) : Int) > b.maxsize + b.reserved then some (0, b)
  else (write b.buff (b.pending + 4) data).map fun m =>
    (data.length, { b with buff := m, pending := b.pending + data.length })

/-- `net_outbuffer_bytes_left` (net_olsr.c:262-273) -/
def bytesLeft (b : Buf) : Int :=
  if b.maxsize - b.pending > 1228 then 1228 else b.maxsize - b.pending

/-- packet header: length, sequence number (16 bits each, network byte order) -/
def header (len seq : Nat) : List Nat := [len / 256 % 256, len % 256, seq / 256 % 256, seq % 256]

/-- `net_output` (net_olsr.c:335-421) -/
def output (b : Buf) : Option Buf :=
  if b.pending = 0 then some b                                                    -- :347-348
  else
    (write b.buff 0 (header (b.pending + 4) b.seqnum)).map fun m =>               -- :354-358
      { b with buff := m, pending := 0, seqnum := (b.seqnum + 1) % 65536          -- :411, :356
               sent := b.sent ++ [m.take (b.pending + 4)] }                       -- :387

/-- operations on a buffer -/
inductive Op where
  | push (data : List Nat)
  | pushReserved (data : List Nat)
  | reserve (size : Nat)
  | output

/-- one operation; the second component lists the message if it was accepted -/
def step (b : Buf) : Op → Option (Buf × List (List Nat))
  | .push d => (push b d).map fun r => (r.2, if r.1 = d.length then [d] else [])
  | .pushReserved d => (pushReserved b d).map fun r => (r.2, if r.1 = d.length then [d] else [])
  | .reserve n => some ((reserve b n).2, [])
  | .output => (output b).map fun b => (b, [])

/-- a sequence of operations, collecting the accepted messages -/
def run : Buf → List Op → Option (Buf × List (List Nat))
  | b, [] => some (b, [])
  | b, op :: ops =>
    match step b op with
    | none => none
    | some r => (run r.1 ops).map fun q => (q.1, r.2 ++ q.2)

end Verif.Netbuf
