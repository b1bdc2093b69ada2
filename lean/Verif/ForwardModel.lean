import Verif.NetbufModel
import Verif.DupModel

/-!
# Model of `olsr_forward_message` (`src/olsr.c`)

A message is the list of its bytes.  The MID table, the neighbour table and the MPR selector set appear as
lookup functions.  `set_buffer_timer` only sets the time of the next flush and is left out; a flush may
therefore happen at any time between two calls.
-/

namespace Verif.Forward

open Verif.Netbuf

inductive Mode where | mesh | ether | silent
deriving DecidableEq

structure Iface where
  mode : Mode
  buf : Buf
deriving DecidableEq

/-- the parts of the node's state that matter -/
structure Node where
  ipsize : Nat                        -- 4 or 16
  mainAddr : Nat → Option Nat         -- mid_lookup_main_addr
  neighSym : Nat → Option Bool        -- olsr_lookup_neighbor_table: entry, status == SYM
  isSelector : Nat → Bool             -- olsr_lookup_mprs_set(...) != NULL
  dup : Verif.Dup.State
  ifs : List Iface

/-- byte `i` of the message -/
def byte (m : List Nat) (i : Nat) : Nat := m.getD i 0

def ttl (n : Nat) (m : List Nat) : Nat := byte m (4 + n)
def hopcnt (n : Nat) (m : List Nat) : Nat := byte m (5 + n)
/-- originator address as a number -/
def orig (n : Nat) (m : List Nat) : Nat := ((m.drop 4).take n).foldl (fun a b => a * 256 + b) 0
def seqno (n : Nat) (m : List Nat) : Nat := byte m (6 + n) * 256 + byte m (7 + n)

/-- `is_ttl_1` (olsr.c:332-338) -/
def isTtl1 (n : Nat) (m : List Nat) : Bool := ttl n m < 2 || 255 < hopcnt n m + ttl n m

/-- hop count and TTL updated (olsr.c:366-376), 8-bit fields -/
def bump (n : Nat) (m : List Nat) : List Nat :=
  (m.set (5 + n) ((hopcnt n m + 1) % 256)).set (4 + n) ((ttl n m + 255) % 256)

/-- body of the interface loop (olsr.c:383-415) for one interface; `isIn`: the message came in there -/
def sendOn (ifc : Iface) (isIn ttl1 : Bool) (m : List Nat) : Option Iface :=
  if ifc.mode = .silent then some ifc                                      -- :384
  else if isIn && ifc.mode = .ether then some ifc                          -- :387
  else if ttl1 && ifc.mode ≠ .ether then some ifc                          -- :390
  else if ifc.buf.pending % 65536 ≠ 0 then                                 -- :392, net_output_pending is a uint16_t
    match push ifc.buf m with
    | none => none
    | some (r, b) =>
      if r ≠ m.length then                                                 -- :396
        match output b with                                                -- :398
        | none => none
        | some b => (push b m).map fun q => { ifc with buf := q.2 }        -- :402
      else some { ifc with buf := b }
  else (push ifc.buf m).map fun q => { ifc with buf := q.2 }               -- :411

/-- the interface loop (olsr.c:382-416); `inIdx` is the index of the incoming interface, `k` the current one -/
def sendAll (inIdx : Nat) (ttl1 : Bool) (m : List Nat) : Nat → List Iface → Option (List Iface)
  | _, [] => some []
  | k, i :: is => do
    let i' ← sendOn i (k == inIdx) ttl1 m
    let is' ← sendAll inIdx ttl1 m (k + 1) is
    return i' :: is'

/-- `olsr_forward_message` (olsr.c:318-418); result: return value, node, message as left in the receive buffer -/
def forward (nd : Node) (m : List Nat) (inIdx src0 now : Nat) : Option (Bool × Node × List Nat) :=
  let t1 := isTtl1 nd.ipsize m
  let src := (nd.mainAddr src0).getD src0                                  -- :341-343
  match nd.neighSym src with                                               -- :345-350
  | some true =>
    if nd.isSelector src then                                              -- :353
      let d := Verif.Dup.isDuplicate nd.dup (orig nd.ipsize m) (seqno nd.ipsize m) now
      if d.1 then some (false, { nd with dup := d.2 }, m)                  -- :361
      else
        let m' := if t1 then m else bump nd.ipsize m
        (sendAll inIdx t1 m' 0 nd.ifs).map fun ifs => (true, { nd with dup := d.2, ifs }, m')
    else some (false, nd, m)
  | _ => some (false, nd, m)

end Verif.Forward
