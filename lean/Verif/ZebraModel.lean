/-
Model of the quagga plugin: `lib/quagga/src/client.c` (`zclient_read`, `zclient_write`), `packet.c`,
`parse.c` and `quagga.c`, and the list functions of `src/cfgparser/olsrd_conf.c` (1462-1500).

Bytes are numbers below 256.  `olsr_malloc` never fails and clears the memory (olsr.c:595-612).  The
version of the protocol is 0, 1 or 2 (plugin.c:163); for every other one olsrd exits.  The flags of
the socket and the debug output are left out.
-/

namespace Verif.Zebra

/-- `htons` to memory. -/
def be16 (x : Nat) : List Nat := [x / 256 % 256, x % 256]

/-- `htonl` to memory. -/
def be32 (x : Nat) : List Nat := [x / 16777216 % 256, x / 65536 % 256, x / 256 % 256, x % 256]

/-- `ntohs` of the two bytes at an offset. -/
def get16 (b : List Nat) (i : Nat) : Nat := b.getD i 0 * 256 + b.getD (i + 1) 0

/-- `ntohl` of four bytes. -/
def val32 (b : List Nat) : Nat :=
  b.getD 0 0 * 16777216 + b.getD 1 0 * 65536 + b.getD 2 0 * 256 + b.getD 3 0

/-- `struct zroute` (packet.h:89-102).  `pfx` are the bytes of the union, 4 or 16 of which are set;
the counts are the lengths of the lists. -/
structure ZRoute where
  type : Nat
  flags : Nat
  message : Nat
  safi : Nat
  plen : Nat
  pfx : List Nat
  nexthops : List (List Nat)
  ifindex : List Nat
  metric : Nat
  distance : Nat
deriving DecidableEq, Repr

/-- Does the message have this flag (packet.h:77-80)? -/
def has (m f : Nat) : Bool := m / f % 2 == 1

/-! ### Sending -/

/-- The header (packet.c:67-82, 153-168) after the length. -/
def header (ver cmd : Nat) : List Nat :=
  if ver = 0 then [cmd % 256] else [255, ver] ++ be16 cmd

/-- The next hops (packet.c:109-131).  The count is an `unsigned char`. -/
def nexthopBytes (v6 : Bool) (r : ZRoute) : List Nat :=
  if has r.message 1 then
    [(r.nexthops.length + r.ifindex.length) % 256] ++
      (r.nexthops.map fun a => (if v6 then 6 else 3) :: a).flatten ++
      (r.ifindex.map fun i => 1 :: be32 i).flatten
  else []

/-- Everything after the length in a route packet (packet.c:83-139). -/
def routeBody (ver : Nat) (v6 : Bool) (cmd : Nat) (r : ZRoute) : List Nat :=
  header ver cmd ++ [r.type, r.flags, r.message] ++ (if ver = 2 then be16 r.safi else []) ++
    [r.plen] ++ r.pfx.take ((r.plen + 7) / 8) ++ nexthopBytes v6 r ++
    (if has r.message 4 then [r.distance] else []) ++
    (if has r.message 8 then be32 r.metric else [])

/-- The outcome of a function: a value, the end of olsrd, or undefined behaviour. -/
inductive Res (α : Type) where
  | ok (a : α)
  | exit
  | ub
deriving DecidableEq, Repr

/-- `zpacket_route` (packet.c:57-147).  The buffer has 4096 bytes; the prefix has `pfx.length` bytes. -/
def packetRoute (ver : Nat) (v6 : Bool) (cmd : Nat) (r : ZRoute) : Res (List Nat) :=
  if ver > 2 then .exit
  else if r.pfx.length < (r.plen + 7) / 8 then .ub
  else if 2 + (routeBody ver v6 cmd r).length > 4096 then .ub
  else .ok (be16 (2 + (routeBody ver v6 cmd r).length) ++ routeBody ver v6 cmd r)

/-- `zpacket_redistribute` (packet.c:149-180). -/
def packetRedistribute (ver cmd type : Nat) : Res (List Nat) :=
  if ver > 2 then .exit
  else .ok (be16 (3 + (header ver cmd).length) ++ header ver cmd ++ [type])

/-- The configuration of the plugin (common.h:63-77). -/
structure Conf where
  ver : Nat
  v6 : Bool
  flags : Nat
  distance : Nat
deriving DecidableEq, Repr

/-- A route of olsrd: destination, next hop with its interface, hops. -/
structure Rt where
  dst : List Nat
  plen : Nat
  gw : List Nat
  iif : Nat
  hops : Nat
deriving DecidableEq, Repr

/-- The `struct zroute` of `zebra_addroute` and `zebra_delroute` (quagga.c:90-137, 155-202), which
differ in the metric. -/
def zroute (c : Conf) (r : Rt) (metric : Nat) : ZRoute :=
  { type := 11
    flags := c.flags
    message := if c.distance = 0 then 9 else 13
    safi := 1
    plen := r.plen
    pfx := r.dst
    nexthops := if r.gw = r.dst ∧ r.plen = (if c.v6 then 128 else 32) then [] else [r.gw]
    ifindex := if r.gw = r.dst ∧ r.plen = (if c.v6 then 128 else 32) then [r.iif] else []
    metric := metric
    distance := c.distance }

/-- The packet of `zebra_addroute` (quagga.c:84-146). -/
def addroute (c : Conf) (r : Rt) : Res (List Nat) :=
  packetRoute c.ver c.v6 (if c.v6 then 9 else 7) (zroute c r r.hops)

/-- The packet of `zebra_delroute` (quagga.c:148-211). -/
def delroute (c : Conf) (r : Rt) : Res (List Nat) :=
  packetRoute c.ver c.v6 (if c.v6 then 10 else 8) (zroute c r 0)

/-- `zplugin_localpref` (plugin.c:117-129) on the flags. -/
def localpref (b : Bool) (flags : Nat) : Nat := if b then flags &&& 16 else flags

/-- What `write` returns. -/
inductive Wr where
  | wrote (n : Nat)
  | again
  | fail
deriving DecidableEq, Repr

/-- The loop of `zclient_write` (client.c:141-162) on what is left of the packet: the bytes that went
to the socket and the value that is returned, `none` while it goes on.  `write` returns at most what
it was given. -/
def write : List Nat → List Wr → List Nat × Option Int
  | _, [] => ([], none)
  | p, .again :: ws => if p = [] then ([], some 0) else write p ws
  | _, .fail :: _ => ([], some (-1))
  | p, .wrote n :: ws =>
    if p.drop n = [] then (p.take n, some 0)
    else ((p.take n) ++ (write (p.drop n) ws).1, (write (p.drop n) ws).2)

/-- `zclient_write` (client.c:124-165): what went to the socket, the value returned, and whether the
packet was freed. -/
def clientWrite (connected : Bool) (p : List Nat) (ws : List Wr) : List Nat × Option Int × Bool :=
  if !connected then ([], some 0, false)
  else ((write p ws).1, (write p ws).2, true)

/-! ### Receiving -/

/-- What `read` returns. -/
inductive Rd where
  | data (b : List Nat)
  | again
  | eof
  | fail
deriving DecidableEq, Repr

/-- The loop of client.c:213-216, `none` if it needs more than `fuel` rounds.  `offset` has 16 bits. -/
def scan (b : List Nat) : Nat → Nat → Option Nat
  | 0, _ => none
  | n + 1, off =>
    if off + 2 ≤ b.length then scan b n ((off + get16 b off) % 65536) else some off

/-- The outcome of `zclient_read`: the packets with what is left to be read, nothing, or an endless
loop. -/
inductive Got where
  | packets (b : List Nat) (rest : List Rd)
  | nothing (connected : Bool) (rest : List Rd)
  | hang
deriving DecidableEq, Repr

/-- `zclient_read` (client.c:167-226).  Each round of `scan` has `fuel`.  Without further results the
socket is empty. -/
def clientRead (fuel : Nat) : List Rd → List Nat → Nat → Got
  | [], _, _ => .nothing true []
  | .again :: rest, _, _ => .nothing true rest
  | .eof :: rest, _, _ => .nothing true rest
  | .fail :: rest, _, _ => .nothing false rest
  | .data d :: rest, b, off =>
    match scan (b ++ d) fuel off with
    | none => .hang
    | some off' => if (b ++ d).length = off' then .packets (b ++ d) rest else clientRead fuel rest (b ++ d) off'

/-- `n` bytes from memory, `none` past its end. -/
def rd (n : Nat) (m : List Nat) : Option (List Nat × List Nat) :=
  if n ≤ m.length then some (m.take n, m.drop n) else none

/-- `n` items of `k` bytes. -/
def rdMany (k : Nat) : Nat → List Nat → Option (List (List Nat) × List Nat)
  | 0, m => some ([], m)
  | n + 1, m =>
    match rd k m with
    | none => none
    | some (x, m1) =>
      match rdMany k n m1 with
      | none => none
      | some (xs, m2) => some (x :: xs, m2)

/-- A count and so many items of `k` bytes, if the flag is set (parse.c:108-134). -/
def rdCounted (present : Bool) (k : Nat) (m : List Nat) : Option (List (List Nat) × List Nat) :=
  if present then
    match rd 1 m with
    | none => none
    | some (c, m1) => rdMany k (c.getD 0 0) m1
  else some ([], m)

/-- `n` bytes, if the flag is set. -/
def rdIf (present : Bool) (n : Nat) (m : List Nat) : Option (List Nat × List Nat) :=
  if present then rd n m else some ([], m)

/-- The fields of `zparse_route` after the header (parse.c:95-154) with the rest of the memory.  The
prefix is a union of 16 bytes in the middle of the structure: more bytes overwrite what follows. -/
def routeFields (ver : Nat) (v6 : Bool) (m : List Nat) : Option (ZRoute × List Nat) :=
  match rd 4 m with
  | none => none
  | some (h, m1) =>
    if (h.getD 3 0 + 7) / 8 > 16 then none
    else
      match rd ((h.getD 3 0 + 7) / 8) m1 with
      | none => none
      | some (p, m2) =>
        match rdCounted (has (h.getD 2 0) 1) (if v6 then 16 else 4) m2 with
        | none => none
        | some (nh, m3) =>
          match rdCounted (has (h.getD 2 0) 2) 4 m3 with
          | none => none
          | some (ifx, m4) =>
            match rdIf (has (h.getD 2 0) 4) 1 m4 with
            | none => none
            | some (dist, m5) =>
              match rdIf (has (h.getD 2 0) 8 || ver == 0) 4 m5 with
              | none => none
              | some (met, m6) =>
                some (⟨h.getD 0 0, h.getD 1 0, h.getD 2 0, 0, h.getD 3 0,
                  p ++ List.replicate (16 - p.length) 0, nh, ifx.map val32, val32 met, dist.getD 0 0⟩, m6)

/-- `zparse_route` (parse.c:69-161) on the memory from the packet on. -/
def parseRoute (ver : Nat) (v6 : Bool) (m : List Nat) : Res ZRoute :=
  match rd (if ver = 0 then 3 else 6) m with
  | none => .ub
  | some (_, m1) =>
    match routeFields ver v6 m1 with
    | none => .ub
    | some (r, m2) => if m.length - m2.length = get16 m 0 then .ok r else .exit

/-- An entry of `hna_entries`: the union and the prefix length. -/
abbrev Hna := List Nat × Nat

/-- `ip_prefix_list_add` (olsrd_conf.c:1462-1476). -/
def listAdd (l : List Hna) (e : Hna) : List Hna := e :: l

/-- `ip_prefix_list_remove` (olsrd_conf.c:1478-1503); `ipequal` compares 4 or 16 bytes. -/
def listRemove (v6 : Bool) (l : List Hna) (e : Hna) : List Hna :=
  match l with
  | [] => []
  | x :: r =>
    if e.1.take (if v6 then 16 else 4) = x.1.take (if v6 then 16 else 4) ∧ x.2 = e.2 then r
    else x :: listRemove v6 r e

/-- The command (parse.c:185-204). -/
def command (ver : Nat) (m : List Nat) : Res Nat :=
  if ver = 0 then
    match rd 3 m with
    | none => .ub
    | some (h, _) => .ok (h.getD 2 0)
  else
    match rd 6 m with
    | none => .ub
    | some (h, _) => if h.getD 2 0 ≠ 255 ∨ h.getD 3 0 ≠ ver then .exit else .ok (get16 h 4)

/-- One packet (parse.c:206-247). -/
def dispatch (ver : Nat) (v6 : Bool) (m : List Nat) (cmd : Nat) (l : List Hna) : Res (List Hna) :=
  if cmd = (if v6 then 9 else 7) then
    match parseRoute ver v6 m with
    | .ok r => .ok (listAdd l (r.pfx, r.plen))
    | .exit => .exit
    | .ub => .ub
  else if cmd = (if v6 then 10 else 8) then
    match parseRoute ver v6 m with
    | .ok r => .ok (listRemove v6 l (r.pfx, r.plen))
    | .exit => .exit
    | .ub => .ub
  else .ok l

/-- The loop of `zparse` (parse.c:176-250) over the memory from `f` on, `left` bytes of which are
data.  Each round takes at least one byte. -/
def parse (ver : Nat) (v6 : Bool) : Nat → List Nat → Nat → List Hna → Res (List Hna)
  | 0, _, _, l => .ok l
  | n + 1, m, left, l =>
    match rd 2 m with
    | none => .ub
    | some (h, _) =>
      if get16 h 0 = 0 then .exit
      else
        match command ver m with
        | .exit => .exit
        | .ub => .ub
        | .ok cmd =>
          match dispatch ver v6 m cmd l with
          | .exit => .exit
          | .ub => .ub
          | .ok l' =>
            if left ≤ get16 h 0 then .ok l' else parse ver v6 n (m.drop (get16 h 0)) (left - get16 h 0) l'

/-- The memory of the buffer: the data and zeros up to a multiple of 4096 (client.c:185-190). -/
def memory (b : List Nat) : List Nat :=
  b ++ List.replicate ((b.length + 4095) / 4096 * 4096 - b.length) 0

/-- `zparse` on what `zclient_read` has returned (parse.c:163-254). -/
def zparse (ver : Nat) (v6 : Bool) (b : List Nat) (l : List Hna) : Res (List Hna) :=
  if ver > 2 then .exit else parse ver v6 b.length (memory b) b.length l

end Verif.Zebra
