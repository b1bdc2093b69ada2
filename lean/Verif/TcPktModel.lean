/-!
# TC messages: generation, fragments, border flags, and the bytes on the wire

`lq_packet.c` (`create_lq_tc`, `serialize_lq_tc`, `calculate_border_flag`) and the address arithmetic
of `tc_set.c` (`olsr_calculate_tc_border`).  Addresses are lists of `ipsize` bytes in network order.
Link qualities are the two bytes of the etx_ff and etx_fpm algorithms (lq_plugin_default_ff.c 325-346):
two values and two bytes of padding.  `olsr_malloc` never fails.
-/
namespace Verif.TcPkt

/-- One advertised neighbour (`struct tc_mpr_addr`, packet.h 75-79): main address, LQ and NLQ. -/
structure Item where
  addr : List Nat
  lq : Nat
  nlq : Nat
  deriving DecidableEq, Repr

/-- The value of the bytes as a number, most significant byte first. -/
def beVal (b : List Nat) : Nat := b.foldl (fun a x => a * 256 + x) 0

/-- What `olsrd_avl_comp_default` compares (olsr.c 264-270, common/olsrd_avl.c 63-73, ipcalc.h 71-86):
`memcmp` for IPv6, for IPv4 the word in the byte order of the host.  `hostBE` tells whether the host
is big endian. -/
def key (v6 hostBE : Bool) (a : List Nat) : Nat :=
  if v6 || hostBE then beVal a else beVal a.reverse

/-- A neighbour as `create_lq_tc` sees it: status, MPR flag, MPR selector, and the best link with its
cost and quality. -/
structure Cand where
  addr : List Nat
  sym : Bool
  isMpr : Bool
  mprSel : Bool
  link : Option (Nat × Nat × Nat)
  deriving DecidableEq, Repr

/-- `LINK_COST_BROKEN` (lq_plugin.h 56). -/
def linkCostBroken : Nat := 2 ^ 22

/-- Whether and how a neighbour is advertised (lq_packet.c 224-271). -/
def advertise (redundancy : Nat) (c : Cand) : Option Item :=
  if c.sym = false then none
  else if redundancy = 1 ∧ c.isMpr = false ∧ c.mprSel = false then none
  else if redundancy = 0 ∧ c.mprSel = false then none
  else
    match c.link with
    | none => none
    | some (cost, lq, nlq) =>
      if cost ≥ linkCostBroken then none else some { addr := c.addr, lq := lq, nlq := nlq }

/-- The sorted insertion of `create_lq_tc` (lq_packet.c 277-292): before the first element that
compares greater. -/
def insertSorted (k : List Nat → Nat) (n : Item) : List Item → List Item
  | [] => [n]
  | x :: xs => if k x.addr > k n.addr then n :: x :: xs else x :: insertSorted k n xs

/-- `create_lq_tc` (lq_packet.c 182-299), the neighbour list only. -/
def createTc (k : List Nat → Nat) (redundancy : Nat) (cs : List Cand) : List Item :=
  cs.foldl (fun acc c =>
    match advertise redundancy c with
    | none => acc
    | some n => insertSorted k n acc) []

/-- The loop over `bitpos` in `calculate_border_flag` (lq_packet.c 534-539): the first position
where the bytes agree above it. `fuel` counts the positions left. -/
def bitLoop (x y : Nat) : Nat → Nat → Nat
  | 0, p => p
  | fuel + 1, p =>
    if x &&& ((0xfe <<< p) % 256) = y &&& ((0xfe <<< p) % 256) then p else bitLoop x y fuel (p + 1)

/-- `calculate_border_flag` (lq_packet.c 516-543). -/
def borderFlag (lower higher : List Nat) : Nat :=
  match lower, higher with
  | x :: xs, y :: ys => if x = y then borderFlag xs ys else bitLoop x y 8 0 + 8 * xs.length + 1
  | _, _ => 0

/-- One fragment: the two border flags and the neighbours in it. -/
structure Frag where
  lower : Nat
  upper : Nat
  items : List Item
  deriving DecidableEq, Repr

/-- The loop of `serialize_lq_tc` (lq_packet.c 600-644).  `item` is the size of one neighbour, `full`
the room for neighbours in an empty buffer, `rem` the room in the present one, `cur` the neighbours
already in the fragment.  `none` is the failed assertion on line 607. -/
def fragLoop (item : Nat) (full : Int) : Int → Nat → Option (List Nat) → Nat → List Item →
    List Item → Option (List Frag)
  | _, left, _, _, cur, [] => some [{ lower := left, upper := 0xff, items := cur }]
  | rem, left, last, size, cur, n :: ns =>
    if ((size + item : Nat) : Int) > rem then
      match last with
      | none => none
      | some l =>
        match fragLoop item full full (borderFlag l n.addr) (some n.addr) item [n] ns with
        | none => none
        | some fs => some ({ lower := left, upper := borderFlag l n.addr, items := cur } :: fs)
    else fragLoop item full rem left (some n.addr) (size + item) (cur ++ [n]) ns

/-- Size of the message header with the TC header: `common_size` (lq_packet.c 314-320) and
`struct lq_tc_header`. -/
def off (ipsize : Nat) : Nat := 8 + ipsize + 4

/-- Size of one neighbour: address and four bytes of link quality. -/
def itemSize (ipsize : Nat) : Nat := ipsize + 4

/-- Whether the output buffer is flushed first because the neighbours do not fit in what is left of
it (lq_packet.c 580-597). -/
def flushes (ipsize left pending : Nat) (ns : List Item) : Bool :=
  decide (((left : Int) - off ipsize) <
    (if 0 < pending then ns.length * itemSize ipsize else 0 : Nat))

/-- `serialize_lq_tc` (lq_packet.c 545-649).  `left` and `pending` describe the output buffer at the
start (`net_outbuffer_bytes_left`, `net_output_pending`), `full` is what is left after it is
flushed. -/
def serialize (ipsize left pending full : Nat) (ns : List Item) : Option (List Frag) :=
  fragLoop (itemSize ipsize) ((full : Int) - off ipsize)
    (if flushes ipsize left pending ns then (full : Int) - off ipsize else (left : Int) - off ipsize)
    0xff none 0 [] ns

/-- The fields of the message header and of the TC header. -/
structure Hdr where
  vtime : Nat
  orig : List Nat
  ttl : Nat
  hops : Nat
  seq : Nat
  ansn : Nat
  lower : Nat
  upper : Nat
  deriving DecidableEq, Repr

/-- `htons` to memory. -/
def be16 (x : Nat) : List Nat := [x / 256 % 256, x % 256]

/-- One neighbour on the wire (lq_packet.c 629-637, lq_plugin_default_ff.c 326-336). -/
def itemBytes (n : Item) : List Nat := n.addr ++ [n.lq % 256, n.nlq % 256, 0, 0]

/-- A message with the header of `serialize_common` (lq_packet.c 322-352), the TC header and the
neighbours. -/
def encode (h : Hdr) (ns : List Item) : List Nat :=
  [202, h.vtime] ++ be16 (off h.orig.length + ns.length * itemSize h.orig.length) ++ h.orig ++
    [h.ttl, h.hops] ++ be16 h.seq ++ be16 h.ansn ++ [h.lower, h.upper] ++
    (ns.map itemBytes).flatten

/-- The header fields as `olsr_input_tc` reads them (tc_set.c 810-823); `none` if that reads beyond
the message. -/
def readHdr (ipsize : Nat) (m : List Nat) : Option (Hdr × List Nat) :=
  if m.length < off ipsize then none
  else
    some ({ vtime := m.getD 1 0
            orig := (m.drop 4).take ipsize
            ttl := m.getD (4 + ipsize) 0
            hops := m.getD (5 + ipsize) 0
            seq := m.getD (6 + ipsize) 0 * 256 + m.getD (7 + ipsize) 0
            ansn := m.getD (8 + ipsize) 0 * 256 + m.getD (9 + ipsize) 0
            lower := m.getD (10 + ipsize) 0
            upper := m.getD (11 + ipsize) 0 }, m.drop (off ipsize))

/-- The address computed from a border flag other than 0xff (tc_set.c 740-745, 753-759): the flag is
decremented as a byte, the bytes below are cleared, and so are the bits below in the byte it points
at, where one bit is set.  `none` is a write outside the address. -/
def borderAddr (flag : Nat) (a : List Nat) : Option (List Nat) :=
  let f := (flag + 255) % 256
  if f / 8 < a.length then
    let i := a.length - f / 8 - 1
    some (a.take i ++
      [((a.getD i 0 &&& ((0xff <<< (f % 8)) % 256)) ||| (1 <<< (f % 8))) % 256] ++
      List.replicate (f / 8) 0)
  else none

/-- `olsr_calculate_tc_border` (tc_set.c 728-762) for the first and last address of a message:
`some none` if there are no borders, else the lower and upper border address. -/
def calcBorders (lower upper : Nat) (first last : List Nat) :
    Option (Option (List Nat × List Nat)) :=
  if lower = 0 ∧ upper = 0 then some none
  else
    match (if lower = 0xff then some (List.replicate first.length 0) else borderAddr lower first),
      (if upper = 0xff then some (List.replicate last.length 0xff) else borderAddr upper last) with
    | some l, some u => some (some (l, u))
    | _, _ => none

end Verif.TcPkt
