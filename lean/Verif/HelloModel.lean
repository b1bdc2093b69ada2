import Verif.BuildMsgModel

/-!
# HELLO messages: generation with link quality, and reading

`lq_packet.c` (`create_lq_hello`, `serialize_lq_hello`) and `process_package.c` (`deserialize_hello`).
Link qualities are the two bytes of the etx_ff and etx_fpm algorithms (lq_plugin_default_ff.c 303-325):
two values and two bytes of padding.  The output buffer is that of `BuildMsgModel`.
-/
namespace Verif.Hello

open Verif BuildMsg

/-- One announced neighbour interface (`struct lq_hello_neighbor`): address, link type, neighbour type, and the
two bytes of its link quality. -/
structure Nb where
  addr : List Nat
  link : Nat
  status : Nat
  lq : Nat
  nlq : Nat
  deriving DecidableEq, Repr

/-- What `create_lq_hello` reads of a link: the neighbour's interface address, whether the link is on the
interface the message is for, its status (`lookup_link_status`, link_set.c), the neighbour's MPR flag and
status, and the link quality. -/
structure Link where
  addr : List Nat
  here : Bool
  status : Nat
  isMpr : Bool
  sym : Bool
  lq : Nat
  nlq : Nat
  deriving DecidableEq, Repr

/-- lq_packet.c 119-126: `UNSPEC_LINK` for a link that is not visible on the interface. -/
def linkType (l : Link) : Nat := if l.here then l.status else 0

/-- lq_packet.c 135-148. -/
def nbType (l : Link) : Nat := if l.isMpr then 2 else if l.sym then 1 else 0

/-- The entry made of a link (lq_packet.c 130-153). -/
def entryOf (l : Link) : Nb := { addr := l.addr, link := linkType l, status := nbType l, lq := l.lq, nlq := l.nlq }

/-- One round of the loop in `create_lq_hello` (lq_packet.c 107-162): a new address is queued in front; an entry with
`UNSPEC_LINK` is replaced in place by a link with another type.  `neigh_find` (lq_packet.c 70-85) returns the first entry with the
address. -/
def createStep (l : Link) : List Nb → Option (List Nb)
  | [] => none
  | n :: ns =>
    if n.addr = l.addr then
      some (if n.link = 0 ∧ linkType l ≠ 0 then entryOf l :: ns else n :: ns)
    else (createStep l ns).map (fun r => n :: r)

/-- The loop over the link set. -/
def create : List Link → List Nb → List Nb
  | [], ns => ns
  | l :: ls, ns =>
    match createStep l ns with
    | some ns' => create ls ns'
    | none => create ls (entryOf l :: ns)

/-- `common_size` and `struct lq_hello_header` (lq_packet.c 313-320, 366-380). -/
def off (v6 : Bool) : Nat := hdr v6 + 4

/-- Size of a neighbour: address and, for the messages with link quality, four more bytes. -/
def nbSize (v6 lq : Bool) : Nat := ipsize v6 + (if lq then 4 else 0)

/-- A block of the message: its link code and the neighbours in it. -/
structure Block where
  code : Nat
  nbs : List Nb
  deriving DecidableEq, Repr

/-- lq_packet.c 489-493, lq_plugin_default_ff.c 303-314. -/
def nbBytes (lq : Bool) (n : Nb) : List Nat := n.addr ++ (if lq then [n.lq % 256, n.nlq % 256, 0, 0] else [])

/-- lq_packet.c 478-484, 459 and 503. -/
def blockBytes (v6 lq : Bool) (b : Block) : List Nat :=
  [b.code, 0] ++ TcPkt.be16 (4 + b.nbs.length * nbSize v6 lq) ++ (b.nbs.map (nbBytes lq)).flatten

/-- The fields of the message header: type, validity time, originator; HELLO interval and willingness. -/
structure Head where
  ty : Nat
  vtime : Nat
  orig : List Nat
  htime : Nat
  will : Nat
  deriving DecidableEq, Repr

/-- The bytes of a message (lq_packet.c 322-352, 372-374): time to live 1, hop count 0. -/
def bytes (v6 lq : Bool) (h : Head) (seq : Nat) (bs : List Block) : List Nat :=
  [h.ty, h.vtime] ++ TcPkt.be16 (off v6 + (bs.map (blockBytes v6 lq)).flatten.length) ++ h.orig ++ [1, 0] ++ TcPkt.be16 seq ++
    [0, 0, h.htime, h.will] ++ (bs.map (blockBytes v6 lq)).flatten

/-- The running state of `serialize_lq_hello`: output buffer, `net_outbuffer_bytes_left` when `rem` was last computed, the
blocks of the present message, whether `info_head` is set, and the next sequence number. -/
structure Gen where
  out : Out
  left : Nat
  blocks : List Block
  head : Bool
  seq : Nat
  deriving DecidableEq, Repr

/-- `size`. -/
def size (v6 : Bool) (g : Gen) : Nat := (g.blocks.map (blockBytes v6 true)).flatten.length

/-- A neighbour at the end of the last block. -/
def append (n : Nb) : List Block → List Block
  | [] => []
  | [b] => [{ b with nbs := b.nbs ++ [n] }]
  | b :: bs => b :: append n bs

/-- One neighbour (lq_packet.c 431-497).  `none` is the failed assertion on line 458. -/
def addNb (v6 : Bool) (h : Head) (code : Nat) (first : Bool) (g : Gen) (n : Nb) : Option Gen :=
  if size v6 g + nbSize v6 true + (if first then 4 else 0) + off v6 > g.left then
    if g.head = false then none
    else
      let o := output (push g.out (bytes v6 true h g.seq g.blocks))
      some { out := o, left := left o, blocks := [{ code := code, nbs := [n] }], head := true, seq := (g.seq + 1) % 65536 }
  else if first then some { g with blocks := g.blocks ++ [{ code := code, nbs := [n] }], head := true }
  else some { g with blocks := append n g.blocks }

/-- The loop over the neighbours with one neighbour type and link type. -/
def addGroup (v6 : Bool) (h : Head) (code : Nat) : Bool → Gen → List Nb → Option Gen
  | _, g, [] => some g
  | first, g, n :: ns =>
    match addNb v6 h code first g n with
    | none => none
    | some g' => addGroup v6 h code false g' ns

/-- `HELLO_LINK_ORDER_ARRAY` (olsr_protocol.h 107-114). -/
def linkOrder : List Nat := [0, 3, 1, 2]

/-- The pairs of neighbour type and link type in the order of the loops (lq_packet.c 424-426). -/
def kinds : List (Nat × Nat) := [0, 1, 2].flatMap (fun i => linkOrder.map (fun j => (i, j)))

/-- `CREATE_LINK_CODE` (olsr_protocol.h 201). -/
def linkCode (i j : Nat) : Nat := j ||| (i <<< 2)

/-- The loops over neighbour types and link types. -/
def addKinds (v6 : Bool) (h : Head) (ns : List Nb) : Gen → List (Nat × Nat) → Option Gen
  | g, [] => some g
  | g, k :: ks =>
    match addGroup v6 h (linkCode k.1 k.2) true g (ns.filter (fun n => n.status == k.1 && n.link == k.2)) with
    | none => none
    | some g' => addKinds v6 h ns g' ks

/-- The estimate of the size (lq_packet.c 396-415), made only when something is pending. -/
def expected (v6 : Bool) (pend : Nat) (ns : List Nb) : Nat :=
  if pend = 0 then 0
  else ns.length * nbSize v6 true +
    4 * (kinds.filter (fun k => ns.any (fun n => n.status == k.1 && n.link == k.2))).length

/-- `serialize_lq_hello` (lq_packet.c 354-514): output buffer and next sequence number; `none` is the failed
assertion. -/
def serialize (v6 : Bool) (h : Head) (ns : List Nb) (o : Out) (seq : Nat) : Option (Out × Nat) :=
  let o' := if left o < off v6 + expected v6 o.pend ns then output o else o
  match addKinds v6 h ns { out := o', left := left o', blocks := [], head := false, seq := seq } kinds with
  | none => none
  | some g => some (push g.out (bytes v6 true h g.seq g.blocks), (g.seq + 1) % 65536)

/-! ## Reading -/

/-- What `deserialize_hello` returns.  `reject`: it returns 1; the neighbours allocated so far are lost (nobody frees
them, process_package.c 437-439). -/
inductive Res (α : Type) where
  | ok (a : α)
  | reject (leaked : List Nb)
  | overread
  deriving DecidableEq, Repr

/-- The neighbours of one block: `while (curr < limit2)` (process_package.c 362-383).  `n` is `limit2 - curr`, `l` what is
left of the message.  The neighbours are put in front of the list one by one.  `fuel` is at least `n`. -/
def readNbs (v6 lq : Bool) (code : Nat) : Nat → Nat → List Nat → List Nb → Option (List Nat × List Nb)
  | 0, _, l, acc => some (l, acc)
  | fuel + 1, n, l, acc =>
    if n = 0 then some (l, acc)
    else if l.length < nbSize v6 lq then none
    else
      readNbs v6 lq code fuel (n - nbSize v6 lq) (l.drop (nbSize v6 lq))
        ({ addr := l.take (ipsize v6)
           link := code &&& 3
           status := (code &&& 12) >>> 2
           lq := if lq then l.getD (ipsize v6) 0 else 0
           nlq := if lq then l.getD (ipsize v6 + 1) 0 else 0 } :: acc)

/-- One pass over the message for the link type `ty` (process_package.c 341-384); `l` is what is left of the message,
`acc` the list of neighbours. -/
def pass (v6 lq : Bool) (ty : Nat) : Nat → List Nat → List Nb → Res (List Nb)
  | 0, _, acc => .ok acc
  | fuel + 1, l, acc =>
    if l = [] then .ok acc
    else if l.length < 4 then .overread
    else
      if rd16 (l.getD 2 0) (l.getD 3 0) = 0 then .reject acc
      else if l.getD 0 0 &&& 3 ≠ ty then pass v6 lq ty fuel (l.drop (rd16 (l.getD 2 0) (l.getD 3 0))) acc
      else
        match readNbs v6 lq (l.getD 0 0) 65536 (rd16 (l.getD 2 0) (l.getD 3 0) - 4) (l.drop 4) acc with
        | none => .overread
        | some (l', acc') => pass v6 lq ty fuel l' acc'

/-- The passes in the order of `LINK_ORDER` (process_package.c 340). -/
def passes (v6 lq : Bool) (l : List Nat) : List Nat → List Nb → Res (List Nb)
  | [], acc => .ok acc
  | ty :: tys, acc =>
    match pass v6 lq ty (l.length + 1) l acc with
    | .ok acc' => passes v6 lq l tys acc'
    | .reject x => .reject x
    | .overread => .overread

/-- The removal of entries with `UNSPEC_LINK` whose address is also there with another link type
(process_package.c 387-413).  The entries with `UNSPEC_LINK` are the end of the list because they were read
first; for each of the others, in order, the ones with its address are taken out. -/
def cull (ns : List Nb) : List Nb :=
  let others := ns.filter (fun n => n.link != 0)
  others ++ others.foldl (fun u n => u.filter (fun x => x.addr != n.addr)) (ns.filter (fun n => n.link == 0))

/-- The result of reading a HELLO message. -/
structure Msg where
  vtime : Nat
  orig : List Nat
  ttl : Nat
  hops : Nat
  seq : Nat
  htime : Nat
  will : Nat
  nbs : List Nb
  deriving DecidableEq, Repr

/-- `deserialize_hello` (process_package.c 305-416) on the bytes of one message whose announced size is its length (the
parser checks that). -/
def parse (v6 : Bool) (m : List Nat) : Res Msg :=
  if m.getD 0 0 ≠ 1 ∧ m.getD 0 0 ≠ 201 then .reject []
  else if m.length < off v6 then .overread
  else
    match passes v6 (m.getD 0 0 == 201) (m.drop (off v6)) linkOrder [] with
    | .reject x => .reject x
    | .overread => .overread
    | .ok ns =>
      .ok { vtime := m.getD 1 0
            orig := (m.drop 4).take (ipsize v6)
            ttl := m.getD (ipsize v6 + 4) 0
            hops := m.getD (ipsize v6 + 5) 0
            seq := rd16 (m.getD (ipsize v6 + 6) 0) (m.getD (ipsize v6 + 7) 0)
            htime := m.getD (ipsize v6 + 10) 0
            will := m.getD (ipsize v6 + 11) 0
            nbs := cull ns }

end Verif.Hello
