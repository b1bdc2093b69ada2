import Verif.HelloModel

/-!
# HELLO messages without link quality: what is announced, and the bytes

`packet.c` (`olsr_build_hello_packet`) and `build_msg.c` (`serialize_hello4`, `serialize_hello6`), used when
the link quality level is 0.  The neighbours, blocks and bytes are those of `HelloModel` with link quality switched off; the
output buffer is that of `BuildMsgModel`.  `olsr_malloc` never fails.
-/
namespace Verif.RfcHello

open Verif BuildMsg Hello

/-- What `olsr_build_hello_packet` reads of a neighbour entry: main address, `is_mpr`, `status == SYM`. -/
structure Nbr where
  main : List Nat
  isMpr : Bool
  sym : Bool
  deriving DecidableEq, Repr

/-- What it reads of a link: the neighbour's interface address, whether the local address is that of the interface the message is
for, the link status (`lookup_link_status`, link_set.c), and the neighbour entry. -/
structure Link where
  addr : List Nat
  here : Bool
  status : Nat
  nbr : Nbr
  deriving DecidableEq, Repr

/-- A `struct hello_neighbor`: the announced neighbour and its `main_address`, which is not sent. -/
structure Ent where
  nb : Nb
  main : List Nat
  deriving DecidableEq, Repr

/-- The neighbour type (packet.c 150-183, 241-274); `status` of a neighbour entry is `SYM` or `NOT_SYM`. -/
def nbType (n : Nbr) : Nat := if n.isMpr then 2 else if n.sym then 1 else 0

/-- The entry of a link on the interface (packet.c 136-189). -/
def ofLink (l : Link) : Ent := { nb := { addr := l.addr, link := l.status, status := nbType l.nbr, lq := 0, nlq := 0 }, main := l.nbr.main }

/-- The entry of a neighbour that has no link on the interface (packet.c 228-277). -/
def ofNbr (n : Nbr) : Ent := { nb := { addr := n.main, link := 0, status := nbType n, lq := 0, nlq := 0 }, main := n.main }

/-- One round of the loop over the links (packet.c 123-196). -/
def addLink (acc : List Ent) (l : Link) : List Ent := if l.here then ofLink l :: acc else acc

/-- One round of the loop over the neighbours (packet.c 208-284). -/
def addNbr (acc : List Ent) (n : Nbr) : List Ent := if acc.any (fun e => e.main == n.main) then acc else ofNbr n :: acc

/-- `olsr_build_hello_packet` (packet.c 91-288).  `multi` tells whether there is more than one interface
(line 207). -/
def build (multi : Bool) (ls : List Link) (ns : List Nbr) : List Ent :=
  if multi then ns.foldl addNbr (ls.foldl addLink []) else ls.foldl addLink []

/-- The running state of the writers: output buffer, `remainsize`, the blocks of the present message, and the next sequence
number. -/
structure Gen where
  out : Out
  rem : Nat
  blocks : List Block
  seq : Nat
  deriving DecidableEq, Repr

/-- `curr_size`; the size of the headers is `OLSR_HELLO_IPV4_HDRSIZE`, `OLSR_HELLO_IPV6_HDRSIZE` (build_msg.c 59-60). -/
def curr (v6 : Bool) (g : Gen) : Nat := off v6 + ((g.blocks.map (blockBytes v6 false)).flatten).length

/-- The partial message (build_msg.c 345-365, 502-522): it is sent only if it has a block. -/
def flush (v6 : Bool) (h : Head) (g : Gen) : Gen :=
  if curr v6 g > off v6 then
    { g with out := push g.out (bytes v6 false h g.seq g.blocks), blocks := [], seq := (g.seq + 1) % 65536 }
  else g

/-- Writes a neighbour (build_msg.c 375-388, 531-544): in a new block or at the end of the last. -/
def put (code : Nat) (first : Bool) (g : Gen) (n : Nb) : Gen :=
  { g with blocks := if first then g.blocks ++ [{ code := code, nbs := [n] }] else append n g.blocks }

/-- One neighbour (build_msg.c 323-389, 483-545).  `none` is `olsr_exit` in `check_buffspace` (lines 372, 527). -/
def addNb (v6 : Bool) (h : Head) (code : Nat) (first : Bool) (g : Gen) (n : Nb) : Option Gen :=
  if curr v6 g + ipsize v6 + (if first then 4 else 0) > g.rem then
    if curr v6 (flush v6 h g) + ipsize v6 + 4 > left (output (flush v6 h g).out) then none
    else
      some (put code (first || decide (curr v6 g > off v6))
        { flush v6 h g with out := output (flush v6 h g).out, rem := left (output (flush v6 h g).out) } n)
  else some (put code first g n)

/-- The loop over the neighbours with one neighbour type and link type. -/
def addGroup (v6 : Bool) (h : Head) (code : Nat) : Bool → Gen → List Nb → Option Gen
  | _, g, [] => some g
  | first, g, n :: ns =>
    match addNb v6 h code first g n with
    | none => none
    | some g' => addGroup v6 h code false g' ns

/-- The pairs of neighbour type and link type in the order of the loops (build_msg.c 308-320, 470-476).  The IPv4 version
leaves out `HIDE_LINK` (lines 315-318), the IPv6 version does not. -/
def kinds (v6 : Bool) : List (Nat × Nat) :=
  [0, 1, 2].flatMap (fun i => (if v6 then [0, 1, 2, 3, 4] else [0, 1, 2, 3]).map (fun j => (i, j)))

/-- The loops over neighbour types and link types. -/
def addKinds (v6 : Bool) (h : Head) (ns : List Nb) : Gen → List (Nat × Nat) → Option Gen
  | g, [] => some g
  | g, k :: ks =>
    match addGroup v6 h (linkCode k.1 k.2) true g (group ns k) with
    | none => none
    | some g' => addKinds v6 h ns g' ks
where
  /-- The neighbours of one neighbour type and link type (build_msg.c 324, 480). -/
  group (ns : List Nb) (k : Nat × Nat) : List Nb := ns.filter (fun n => n.status == k.1 && n.link == k.2)

/-- What the first `check_buffspace` asks for beyond the headers: nothing in the IPv4 version (build_msg.c 281), a block with one
neighbour in the IPv6 version (line 445). -/
def firstCheck (v6 : Bool) : Nat := if v6 then 20 else 0

/-- `serialize_hello4` (build_msg.c 254-408) and `serialize_hello6` (420-563): output buffer and next sequence number; `none` is
`olsr_exit`.  The bytes that are written into the buffer behind the end of the message (`hinfo->size` of a
block that is not begun, line 353; sixteen bytes for an address of four, line 382) are not part of it. -/
def serialize (v6 : Bool) (h : Head) (ns : List Nb) (o : Out) (seq : Nat) : Option (Out × Nat) :=
  let o' := if off v6 > left o then output o else o
  if off v6 + firstCheck v6 > left o' then none
  else
    match addKinds v6 h ns { out := o', rem := left o', blocks := [], seq := seq } (kinds v6) with
    | none => none
    | some g => some (push g.out (bytes v6 false h g.seq g.blocks), (g.seq + 1) % 65536)

end Verif.RfcHello
