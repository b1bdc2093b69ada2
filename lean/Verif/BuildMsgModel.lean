import Verif.IpcalcModel
import Verif.GwSpeedModel
import Verif.MantissaModel
import Verif.TcPktModel

/-!
# MID and HNA messages: generation, gateway settings in the netmask, and reception

`build_msg.c` (`serialize_mid4/6`, `serialize_hna4/6`), `rebuild_packet.c` (`mid_chgestruct`), `hna_set.c`
(`olsr_input_hna`) and the netmask part of `gateway.c`.  Addresses are lists of `ipsize` bytes in network
order.  The output buffer is reduced to its capacity, the number of pending bytes and the list of messages
it accepted (the memory of the buffer is the subject of `NetbufModel`).  `olsr_malloc` never fails.
-/
namespace Verif.BuildMsg

open Verif

/-- Result of generating a message: the program goes on, ends in `olsr_exit`, or writes outside an object. -/
inductive Res (α : Type) where
  | ok (a : α)
  | exit
  | ub
  deriving DecidableEq, Repr

/-- The part of `olsr_cnf` used here: address family, main address, smart gateway settings. -/
structure Cfg where
  v6 : Bool
  main : List Nat
  sgwActive : Bool         -- smart_gw_active
  has4 : Bool              -- has_ipv4_gateway
  has6 : Bool              -- has_ipv6_gateway
  nat : Bool               -- smart_gw_uplink_nat
  up : Nat                 -- smart_gw_uplink
  down : Nat               -- smart_gw_downlink
  pfx : List Nat           -- smart_gw_prefix.prefix, 16 bytes
  pfxLen : Nat             -- smart_gw_prefix.prefix_len
  deriving DecidableEq, Repr

/-- `olsr_cnf->ipsize`. -/
def ipsize (v6 : Bool) : Nat := if v6 then 16 else 4

/-- `OLSR_IPV4_HDRSIZE`, `OLSR_IPV6_HDRSIZE` (build_msg.c 56-57, 63-66). -/
def hdr (v6 : Bool) : Nat := if v6 then 24 else 12

/-- Output buffer: `maxsize`, `pending`, and the messages it accepted so far, oldest first. -/
structure Out where
  max : Nat
  pend : Nat
  msgs : List (List Nat)
  deriving DecidableEq, Repr

/-- `net_outbuffer_bytes_left` (net_olsr.c 262-273). -/
def left (o : Out) : Nat := if o.max - o.pend > 1228 then 1228 else o.max - o.pend

/-- `net_outbuffer_push` (net_olsr.c 219-230): a message that does not fit is dropped, the callers ignore the
return value. -/
def push (o : Out) (m : List Nat) : Out :=
  if o.pend + m.length > o.max then o else { o with pend := o.pend + m.length, msgs := o.msgs ++ [m] }

/-- `net_output` (net_olsr.c 335-421): the buffer is empty afterwards. -/
def output (o : Out) : Out := { o with pend := 0 }

/-- The bytes of a message (build_msg.c 828-834, 871-872; 1080-1098): type, validity time, size, originator,
time to live 255, hop count 0, sequence number, payload. -/
def message (ty vtime : Nat) (main : List Nat) (seq : Nat) (payload : List Nat) : List Nat :=
  [ty, vtime] ++ TcPkt.be16 (8 + main.length + payload.length) ++ main ++ [255, 0] ++ TcPkt.be16 seq ++ payload

/-- The running state of a generator: output buffer, `remainsize`, items written into the message since its
header, and the next message sequence number (`get_msg_seqno`, olsr.c 144-147). -/
structure Gen where
  out : Out
  rem : Nat
  cur : List (List Nat)
  seq : Nat
  deriving DecidableEq, Repr

/-- `curr_size`. -/
def currSize (v6 : Bool) (g : Gen) : Nat := hdr v6 + g.cur.flatten.length

/-- Completes the message and hands it to the output buffer (build_msg.c 852-857, 1006-1010). -/
def emit (ty vtime : Nat) (main : List Nat) (g : Gen) : Gen :=
  { g with out := push g.out (message ty vtime main g.seq g.cur.flatten)
           cur := []
           seq := (g.seq + 1) % 65536 }

/-- One item (build_msg.c 845-868 IPv4 MID, 940-963 IPv6 MID, 1000-1031 and 1164-1195 HNA).  `chk` is what is
added to the header size in the second `check_buffspace`. -/
def addItem (v6 : Bool) (ty vtime : Nat) (main : List Nat) (chk : Nat) (g : Gen) (item : List Nat) : Res Gen :=
  if currSize v6 g + item.length > g.rem then
    let g1 := if currSize v6 g > hdr v6 then emit ty vtime main g else g
    let o := output g1.out
    if currSize v6 g1 + chk > left o then .exit
    else .ok { out := o, rem := left o, cur := g1.cur ++ [item], seq := g1.seq }
  else .ok { g with cur := g.cur ++ [item] }

/-- The loop over the items. -/
def addItems (v6 : Bool) (ty vtime : Nat) (main : List Nat) (chk : Nat) : Gen → List (List Nat) → Res Gen
  | g, [] => .ok g
  | g, x :: xs =>
    match addItem v6 ty vtime main chk g x with
    | .ok g' => addItems v6 ty vtime main chk g' xs
    | .exit => .exit
    | .ub => .ub

/-- Sending what is pending when the estimate `needsize` (a `uint16_t`) exceeds the room left
(build_msg.c 809-826, 1068-1089). -/
def start (v6 : Bool) (n : Nat) (o : Out) (seq : Nat) : Res Gen :=
  let o' := if (hdr v6 + n * (2 * ipsize v6)) % 65536 > left o then output o else o
  if hdr v6 > left o' then .exit else .ok { out := o', rem := left o', cur := [], seq }

/-- `serialize_mid4` (build_msg.c 797-881) and `serialize_mid6` (891-975): output buffer and next sequence
number afterwards.  `ifs` are the addresses of the interfaces in the order of the list `ifnet`; `MID2` checks
for the header only in the IPv4 version (line 862) and for one more address in the IPv6 version (957). -/
def mid (v6 : Bool) (vtime : Nat) (main : List Nat) (ifs : List (List Nat)) (o : Out) (seq : Nat) :
    Res (Out × Nat) :=
  if ifs = [] ∨ ifs = [main] then .ok (o, seq)
  else
    match start v6 ifs.length o seq with
    | .exit => .exit
    | .ub => .ub
    | .ok g =>
      match addItems v6 3 vtime main (if v6 then 16 else 0) g (ifs.filter (fun a => a != main)) with
      | .exit => .exit
      | .ub => .ub
      | .ok g' =>
        if currSize v6 g' > hdr v6 then .ok ((emit 3 vtime main g').out, (g'.seq + 1) % 65536)
        else .ok (g'.out, (g'.seq + 1) % 65536)

/-- `is_prefix_inetgw` (ipcalc.c 264-274). -/
def isInetGw (v6 : Bool) (addr : List Nat) (plen : Nat) : Bool :=
  if v6 then Ipcalc.isInetGw6 addr plen else plen == 0 && addr == [0, 0, 0, 0]

/-- `smart_gateway_netmask` and `smart_gateway_netmask_zero` as set up by `refresh_smartgw_netmask`
(gateway.c 1184-1210) for an active smart gateway; 16 bytes. -/
def settings (c : Cfg) (zero : Bool) : List Nat :=
  let wp := c.v6 && decide (0 < c.pfxLen)
  [0, if wp then 17 else 1, if zero then GwSpeed.encode 0 else GwSpeed.encode c.up,
    if zero then GwSpeed.encode 0 else GwSpeed.encode c.down] ++
  (if wp then c.pfxLen :: c.pfx.take 8 ++ [0, 0, 0] else List.replicate 12 0)

/-- The changes to the flag byte (gateway.c 1162-1174). -/
def flagByte (c : Cfg) (plen b : Nat) : Nat :=
  let b := if c.has4 then b ||| 2 else b
  let b := if c.has4 && c.nat then b ||| 4 else b
  let b := if c.has6 then b ||| 8 else b
  if !c.has6 || plen != 3 then b &&& 239 else b

/-- `hna_mask_to_hna_pointer` (gateway.c 200-202) as an offset: the prefix length rounded *up* to bytes. -/
def hnaOff (plen : Nat) : Nat := (plen + 7) / 8

/-- `olsr_modifiy_inetgw_netmask` (gateway.c 1154-1175) on the 16 bytes of a `union olsr_ip_addr`: copies the
settings less the prefix length rounded *down* to bytes. -/
def modifyMask (c : Cfg) (mask : List Nat) (plen : Nat) (zero : Bool) : Res (List Nat) :=
  let n := 16 - plen / 8
  if hnaOff plen + n > mask.length then .ub
  else
    let m := mask.take (hnaOff plen) ++ (settings c zero).take n ++ mask.drop (hnaOff plen + n)
    .ok (m.set (hnaOff plen + 1) (flagByte c plen (m.getD (hnaOff plen + 1) 0)))

/-- `smartgw_is_zero_bandwidth` (olsr_cfg.h 459-476). -/
def zeroBw (c : Cfg) : Bool := c.up == 0 || c.down == 0

/-- The address and netmask of one entry as `appendHNAEntry` (build_msg.c 977-1032) or `appendHNA6Entry`
(1135-1196) writes them; `none` if the entry is left out.  `junk` are the old contents of the 16 bytes of the local variable
`ip_addr`; the `bool` tells whether the entry is sent as a gateway (`sgw_set`). -/
def hnaItem (c : Cfg) (junk : List Nat) (zero : Bool) (e : List Nat × Nat) : Res (Option (List Nat × Bool)) :=
  if !zero && c.sgwActive && isInetGw c.v6 e.1 e.2 && zeroBw c then .ok none
  else
    let m := (Ipcalc.prefixToNetmask (junk.take (ipsize c.v6)) e.2).2 ++ junk.drop (ipsize c.v6)
    if c.sgwActive && isInetGw c.v6 e.1 e.2 then
      match modifyMask c m e.2 zero with
      | .ok m' => .ok (some (e.1 ++ m'.take (ipsize c.v6), true))
      | .exit => .exit
      | .ub => .ub
    else .ok (some (e.1 ++ m.take (ipsize c.v6), false))

/-- The entries of the list that are sent.  (The items do not depend on the state of the output buffer, so
they are computed first; when one of them is undefined behaviour the whole run is.) -/
def hnaItems (c : Cfg) (junk : List Nat) (zero : Bool) : List (List Nat × Nat) → Res (List (List Nat × Bool))
  | [] => .ok []
  | e :: es =>
    match hnaItem c junk zero e with
    | .exit => .exit
    | .ub => .ub
    | .ok none => hnaItems c junk zero es
    | .ok (some i) =>
      match hnaItems c junk zero es with
      | .ok is => .ok (i :: is)
      | .exit => .exit
      | .ub => .ub

/-- The part of `serialize_hna4` / `serialize_hna6` for a non-empty list (build_msg.c 1068-1113, 1232-1277):
output buffer, next sequence number, `sgw_set`.  The last message is sent even if it has no entry. -/
def hnaList (c : Cfg) (junk : List Nat) (vtime : Nat) (zero : Bool) (es : List (List Nat × Nat)) (o : Out)
    (seq : Nat) : Res (Out × Nat × Bool) :=
  match start c.v6 es.length o seq with
  | .exit => .exit
  | .ub => .ub
  | .ok g =>
    match hnaItems c junk zero es with
    | .exit => .exit
    | .ub => .ub
    | .ok is =>
      match addItems c.v6 4 vtime c.main (2 * ipsize c.v6) g (is.map Prod.fst) with
      | .exit => .exit
      | .ub => .ub
      | .ok g' =>
        .ok ((emit 4 vtime c.main g').out, (g'.seq + 1) % 65536, is.any Prod.snd)

/-- What `serialize_hna4/6` keep in the interface: `sgw_sgw_zero_bw_timeout`. -/
structure HnaState where
  out : Out
  seq : Nat
  zeroTime : Nat
  deriving DecidableEq, Repr

/-- The all-zero entry that is sent to withdraw a gateway (build_msg.c 1121-1124, 1285-1288). -/
def zeroEntry (c : Cfg) : List Nat × Nat := (List.replicate (ipsize c.v6) 0, 0)

/-- The withdrawal (build_msg.c 1115-1136, 1279-1300).  The validity time is that left of the window
(lines 1081 and 1245; `reltime_to_me`); `period` is the period of the timer. -/
def withdraw (c : Cfg) (junk : List Nat) (period : Nat) (s : HnaState) : Res HnaState :=
  match Mantissa.relToMe s.zeroTime with
  | none => .ub
  | some vt =>
    match hnaList c junk vt true [zeroEntry c] s.out s.seq with
    | .exit => .exit
    | .ub => .ub
    | .ok (o, seq, _) =>
      .ok { out := o, seq := seq, zeroTime := if s.zeroTime ≤ period then 0 else s.zeroTime - period }

/-- `serialize_hna4` (build_msg.c 1042-1136) and `serialize_hna6` (1206-1300) as called by `queue_hna`.
`valtime` is `valtimes.hna`, `reltime` is `valtimes.hna_reltime`. -/
def hna (c : Cfg) (junk : List Nat) (valtime reltime period : Nat) (es : List (List Nat × Nat)) (s : HnaState) :
    Res HnaState :=
  if es = [] then
    if s.zeroTime = 0 then .ok s
    else if c.sgwActive then withdraw c junk period s else .ok s
  else
    match hnaList c junk valtime false es s.out s.seq with
    | .exit => .exit
    | .ub => .ub
    | .ok (o, seq, set) =>
      let s1 : HnaState := { out := o, seq := seq, zeroTime := if set then reltime else s.zeroTime }
      if c.sgwActive && !set && s1.zeroTime != 0 then withdraw c junk period s1 else .ok s1

/-! ## Reception -/

/-- `ntohs` of two bytes. -/
def rd16 (a b : Nat) : Nat := a * 256 + b

/-- Splits `n` addresses of `k` bytes off the front; `none` when it would read past the end. -/
def takeAddrs (k : Nat) : Nat → List Nat → Option (List (List Nat))
  | 0, _ => some []
  | n + 1, l => if l.length < k then none else (takeAddrs k n (l.drop k)).map (fun r => l.take k :: r)

/-- What `mid_chgestruct` fills in. -/
structure MidMsg where
  orig : List Nat
  seq : Nat
  vtime : Nat
  aliases : List (List Nat)
  deriving DecidableEq, Repr

/-- `mid_chgestruct` (rebuild_packet.c 64-165) on the bytes of one message; the number of addresses is
computed from the announced size less 12 in both address families (lines 86 and 127), and the list is
built back to front (lines 100-103).  `none` is a read past the end of the message. -/
def parseMid (v6 : Bool) (m : List Nat) : Option MidMsg :=
  if m.length < hdr v6 then none
  else
    (takeAddrs (ipsize v6) ((rd16 (m.getD 2 0) (m.getD 3 0) - 12) / ipsize v6) (m.drop (hdr v6))).map
      (fun as =>
        { orig := (m.drop 4).take (ipsize v6)
          seq := rd16 (m.getD (ipsize v6 + 6) 0) (m.getD (ipsize v6 + 7) 0)
          vtime := m.getD 1 0
          aliases := as.reverse })

/-- `olsr_is_smart_gateway` (gateway.c 1223-1232); the mask has `ipsize` bytes. -/
def isSmartGw (v6 : Bool) (addr : List Nat) (plen : Nat) (mask : List Nat) : Bool :=
  isInetGw v6 addr plen && mask.getD (hnaOff plen) 0 == 0 && mask.getD (hnaOff plen + 1) 0 != 0

/-- What a receiver does with one pair of an HNA message. -/
inductive Ev where
  | gateway (plen : Nat) (mask : List Nat)     -- olsr_update_gateway_entry
  | collision (addr : List Nat)                -- olsr_handle_hna_collision
  | own                                        -- one of the own entries
  | update (addr : List Nat) (plen : Nat)      -- olsr_update_hna_entry
  deriving DecidableEq, Repr

/-- The configuration of the receiver: smart gateway, interface addresses, own HNA entries. -/
structure Rx where
  sgwActive : Bool
  ifs : List (List Nat)
  own : List (List Nat × Nat)
  deriving DecidableEq, Repr

/-- The body of the loop (hna_set.c 440-478); `MAXIMUM_GATEWAY_PREFIX_LENGTH` is not defined
(gateway.h 76). -/
def hnaPair (v6 : Bool) (r : Rx) (addr mask : List Nat) : Ev :=
  let plen := Ipcalc.toPrefix mask
  if r.sgwActive && isSmartGw v6 addr plen mask then .gateway plen mask
  else if r.ifs.contains addr then .collision addr
  else if r.own.contains (addr, plen) then .own
  else .update addr plen

/-- `while (curr < curr_end)` (hna_set.c 436-479) over what follows the header.  `fuel` is the number of
bytes. -/
def hnaLoop (v6 : Bool) (r : Rx) : Nat → List Nat → Option (List Ev)
  | _, [] => some []
  | 0, _ => none
  | fuel + 1, l =>
    if l.length < 2 * ipsize v6 then none
    else
      (hnaLoop v6 r fuel (l.drop (2 * ipsize v6))).map (fun es =>
        hnaPair v6 r (l.take (ipsize v6)) ((l.drop (ipsize v6)).take (ipsize v6)) :: es)

/-- `olsr_input_hna` (hna_set.c 368-482) on the bytes of one message whose announced size is its length (the
parser checks that).  `none` is a read past the end of the message; the inner `none` is a message that is
ignored (wrong type or size, or the sender is not a symmetric neighbour). -/
def inputHna (v6 : Bool) (r : Rx) (sym : Bool) (m : List Nat) : Option (Option (List Nat × List Ev)) :=
  if m.length < hdr v6 then none
  else if m.getD 0 0 ≠ 4 then some none
  else if (rd16 (m.getD 2 0) (m.getD 3 0) - hdr v6) % (2 * ipsize v6) ≠ 0 then some none
  else if sym = false then some none
  else
    (hnaLoop v6 r m.length ((m.take (rd16 (m.getD 2 0) (m.getD 3 0))).drop (hdr v6))).map
      (fun es => some ((m.drop 4).take (ipsize v6), es))

/-- What `olsr_update_gateway_entry` reads from a netmask (gateway.c 1260-1291). -/
structure GwInfo where
  up : Nat
  down : Nat
  ipv4 : Bool
  nat : Bool
  ipv6 : Bool
  ext : List Nat × Nat          -- external_prefix: address (first 8 bytes) and length
  deriving DecidableEq, Repr

/-- `ipv6_internet_route.prefix` (ipcalc.c 64-69): 2000::. -/
def route6 : List Nat := [0x20, 0, 0, 0, 0, 0, 0, 0, 0, 0, 0, 0, 0, 0, 0, 0]

/-- The reading of the flags (gateway.c 1260-1291); `old` is the external prefix of the entry so far. -/
def readGw (v6 : Bool) (plen : Nat) (mask : List Nat) (old : List Nat × Nat) : GwInfo :=
  let p := hnaOff plen
  let f := mask.getD (p + 1) 0
  { up := if f.testBit 0 then GwSpeed.decode (mask.getD (p + 2) 0) else 0
    down := if f.testBit 0 then GwSpeed.decode (mask.getD (p + 3) 0) else 0
    ipv4 := f.testBit 1
    nat := f.testBit 2
    ipv6 := v6 && f.testBit 3
    ext :=
      if v6 && plen == 3 then
        if f.testBit 4 && mask == route6 then ((mask.drop (p + 5)).take 8, mask.getD (p + 4) 0)
        else (List.replicate 8 0, 0)
      else old }

/-- A gateway entry is dropped when one of its speeds is zero (gateway.c 1293-1296). -/
def dropped (g : GwInfo) : Bool := g.up == 0 || g.down == 0

end Verif.BuildMsg
