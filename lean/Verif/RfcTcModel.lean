import Verif.TcSetModel
import Verif.BuildMsgModel

/-!
# TC messages without link quality: the bytes

`build_msg.c` (`serialize_tc4`, `serialize_tc6`), used when the link quality level is 0.  The output buffer is that of `BuildMsgModel`, the
bytes of a message are those of `TcSet.encodeRfc`.
-/
namespace Verif.RfcTc

open Verif BuildMsg

/-- The running state: output buffer, `remainsize`, the addresses in the present message, the next sequence number, and the flags `found` and
`partial_sent`. -/
structure Gen where
  out : Out
  rem : Nat
  cur : List (List Nat)
  seq : Nat
  found : Bool
  part : Bool
  deriving DecidableEq, Repr

/-- `curr_size`; the headers have the size `OLSR_TC_IPV4_HDRSIZE`, `OLSR_TC_IPV6_HDRSIZE` (build_msg.c 61-62). -/
def curr (v6 : Bool) (g : Gen) : Nat := TcPkt.off (ipsize v6) + g.cur.flatten.length

/-- The message with the addresses so far is handed to the output buffer (build_msg.c 629-632, 657-660). -/
def send (h : TcPkt.Hdr) (g : Gen) : Out := push g.out (TcSet.encodeRfc { h with seq := g.seq } g.cur)

/-- The partial message (build_msg.c 624-639, 739-751). -/
def flush (v6 : Bool) (h : TcPkt.Hdr) (g : Gen) : Gen :=
  if curr v6 g > TcPkt.off (ipsize v6) then
    { g with out := send h g, cur := [], seq := (g.seq + 1) % 65536, found := false, part := true }
  else g

/-- One address (build_msg.c 619-653, 734-765); `none` is `olsr_exit`. -/
def addAddr (v6 : Bool) (h : TcPkt.Hdr) (g : Gen) (a : List Nat) : Option Gen :=
  if curr v6 g + ipsize v6 > g.rem then
    if curr v6 (flush v6 h g) + ipsize v6 > left (output (flush v6 h g).out) then none
    else
      some { flush v6 h g with
        out := output (flush v6 h g).out, rem := left (output (flush v6 h g).out), cur := (flush v6 h g).cur ++ [a], found := true }
  else some { g with cur := g.cur ++ [a], found := true }

/-- The loop over the MPR selectors. -/
def addAddrs (v6 : Bool) (h : TcPkt.Hdr) : Gen → List (List Nat) → Option Gen
  | g, [] => some g
  | g, a :: as =>
    match addAddr v6 h g a with
    | none => none
    | some g' => addAddrs v6 h g' as

/-- `serialize_tc4` (build_msg.c 575-678) and `serialize_tc6` (690-787): output buffer, next sequence number and the result.  `empty` is
`!TIMED_OUT(send_empty_tc)`. -/
def serialize (v6 : Bool) (h : TcPkt.Hdr) (as : List (List Nat)) (empty : Bool) (o : Out) (seq : Nat) : Option (Out × Nat × Bool) :=
  let o' := if TcPkt.off (ipsize v6) > left o then output o else o
  if TcPkt.off (ipsize v6) > left o' then none
  else
    match addAddrs v6 h { out := o', rem := left o', cur := [], seq := seq, found := false, part := false } as with
    | none => none
    | some g =>
      if g.found || (!g.part && empty) then some (send h g, (g.seq + 1) % 65536, true)
      else some (g.out, g.seq, false)

end Verif.RfcTc
