import Verif.SchedTimeModel

/-!
# Model of the packet history of the multicast plug-ins

`lib/bmf/src/PacketHistory.c`; `lib/p2pd/src/PacketHistory.c` differs only in the
texts of its comments and allocation labels.  A chain of `struct TDupEntry` is the list
of its `(crc32, timeOut)` pairs in chain order.  `olsr_malloc` (src/olsr.c) ends
the program when memory runs out, so the allocation is taken to succeed.
`timeOut` is a `clock_t`; on the modelled platforms it holds every `uint32_t` the
clock helpers produce, so the value read back is the value stored.
-/

namespace Verif.Hist

open Verif.SchedTime

/-- `struct TDupEntry` (PacketHistory.h:71-76) without its `next` pointer. -/
structure Entry where
  crc : Nat
  timeOut : Nat
deriving DecidableEq, Repr

/-- `PacketHistory[HISTORY_HASH_SIZE]` (PacketHistory.c:71). -/
abbrev Table := Nat → List Entry

/-- `HISTORY_HOLD_TIME` (PacketHistory.h:66), milliseconds. -/
def holdTime : Nat := 3000

/-- `Hash` (PacketHistory.c:183-186); the addition is in `u_int32_t`. -/
def hash (x : Nat) : Nat := ((x / 4096 + x) % 4294967296) % 4096

/-- `InitPacketHistory` (PacketHistory.c:196-206), the part about the history. -/
def init : Table := fun _ => []

/-- the `for` loop of `CheckAndMarkRecentPacket` (PacketHistory.c:226-237): the chain
after the walk if the checksum was found in it, with the time-out of the first match
refreshed. -/
def walk (now crc : Nat) : List Entry → Option (List Entry)
  | [] => none
  | e :: es =>
    if e.crc = crc then some (⟨e.crc, getTimestamp now holdTime⟩ :: es)
    else match walk now crc es with
      | some es' => some (e :: es')
      | none => none

/-- assignment to one element of the array -/
def setAt (t : Table) (i : Nat) (es : List Entry) : Table := fun j => if j = i then es else t j

/-- `CheckAndMarkRecentPacket` (PacketHistory.c:217-252): new table and answer. -/
def checkAndMark (now crc : Nat) (t : Table) : Table × Bool :=
  match walk now crc (t (hash crc)) with
  | some es => (setAt t (hash crc) es, true)
  | none => (setAt t (hash crc) (⟨crc, getTimestamp now holdTime⟩ :: t (hash crc)), false)

/-- the `while` loop of `PrunePacketHistory` (PacketHistory.c:271-295) over one chain.
`kept` is the part of the chain up to `prevEntry`, in reverse; unlinking an entry
joins that part with the entry's successors. -/
def pruneChain (now : Nat) (kept : List Entry) : List Entry → List Entry
  | [] => kept.reverse
  | e :: es => if isTimedOut now e.timeOut then pruneChain now kept es
               else pruneChain now (e :: kept) es

/-- `PrunePacketHistory` (PacketHistory.c:262-298): every one of the 4096 chains. -/
def prune (now : Nat) (t : Table) : Table :=
  fun i => if i < 4096 then pruneChain now [] (t i) else t i

/-- What happens to the history: a packet's checksum is looked up (and recorded), or
the periodic clean-up (a 3 s timer, lib/bmf/src/olsrd_plugin.c:116) runs.  `T` is the real
time in milliseconds; the code sees it modulo `2^32`. -/
inductive Ev where
  | mark (T crc : Nat)
  | prune (T : Nat)
deriving DecidableEq, Repr

/-- one event -/
def step (t : Table) : Ev → Table
  | .mark T c => (checkAndMark (T % W) c t).1
  | .prune T => prune (T % W) t

/-- the table after a sequence of events -/
def run (evs : List Ev) : Table := evs.foldl step init

/-- the answer given for a packet with checksum `crc` at time `T` after `evs` -/
def answer (evs : List Ev) (T crc : Nat) : Bool := (checkAndMark (T % W) crc (run evs)).2

end Verif.Hist
