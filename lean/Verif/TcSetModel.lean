import Verif.TcPktModel
import Verif.SeqnoModel
/-!
# Processing of received TC messages

`tc_set.c`.  The topology set maps the main address of an originator to its `tc_entry`; the edges of
an entry are kept in the order of the edge tree.  A message is the list of the bytes from its start to
its announced size; the size field itself is taken to be the length of that list, which the packet
parser has made sure is there (parser.c 298-370).  Allocation never fails.  Left out: `msg_hops`, the
cost computed from the link quality, the inverse edges, the routing table, and the
validity time (its timer is an event that may happen at any time).
-/
namespace Verif.TcSet
open Verif.TcPkt

/-- The configuration (`olsr_cnf`): address family, byte order of the host, LQ level, deny list
(`olsr_validate_address`, net_olsr.c 438-453), and whether the main address is all zero. -/
structure Env where
  v6 : Bool
  hostBE : Bool
  lqLevel : Nat
  valid : List Nat → Bool
  mainZero : Bool

/-- `olsr_cnf->ipsize`. -/
def Env.ipsize (env : Env) : Nat := if env.v6 then 16 else 4

/-- `olsrd_avl_comp_default`. -/
def Env.key (env : Env) : List Nat → Nat := TcPkt.key env.v6 env.hostBE

/-- `struct tc_edge_entry` (tc_set.h 62-70). -/
structure Edge where
  dest : List Nat
  ansn : Nat
  lq : Nat
  nlq : Nat
  deriving DecidableEq, Repr

/-- `struct tc_entry` (tc_set.h 74-95).  `errSeq` is `err_seq` if `err_seq_valid`; `gc` tells whether
`edge_gc_timer` is running. -/
structure Entry where
  seq : Nat
  ansn : Nat
  ignored : Nat
  errSeq : Option Nat
  edges : List Edge
  gc : Bool
  deriving DecidableEq, Repr

/-- The topology set. -/
abbrev Tab := List Nat → Option Entry

/-- Change one entry. -/
def set (t : Tab) (a : List Nat) (e : Option Entry) : Tab := fun x => if x = a then e else t x

/-- What processing can end in. -/
inductive Res (α : Type) where
  | ok (a : α)
  /-- a read behind the announced size of the message -/
  | overread
  /-- a write outside a border address (`olsr_calculate_tc_border`) -/
  | badWrite
  /-- a `NULL` pointer is dereferenced -/
  | nullDeref

/-- `olsr_seq_inrange_low` (tc_set.c 97-112). -/
def inLow (beg fin : Int) (seq : Nat) : Bool :=
  if beg < 0 then decide ((seq : Int) ≥ beg % 65536) || decide ((seq : Int) < fin)
  else if fin ≥ 0x10000 then decide ((seq : Int) ≥ beg) || decide ((seq : Int) < fin % 65536)
  else decide ((seq : Int) ≥ beg) && decide ((seq : Int) < fin)

/-- `olsr_seq_inrange_high` (tc_set.c 114-129). -/
def inHigh (beg fin : Int) (seq : Nat) : Bool :=
  if beg < 0 then decide ((seq : Int) > beg % 65536) || decide ((seq : Int) ≤ fin)
  else if fin ≥ 0x10000 then decide ((seq : Int) > beg) || decide ((seq : Int) ≤ fin % 65536)
  else decide ((seq : Int) > beg) && decide ((seq : Int) ≤ fin)

/-- The test of the sequence numbers in `olsr_input_tc` (tc_set.c 831-861) for an entry with edges:
`some e` if the message is ignored, with the entry as it is left, `none` if it is accepted. -/
def judgeEntry (e : Entry) (seq ansn : Nat) : Option Entry :=
  if inHigh ((e.seq : Int) - 1024) e.seq seq && inHigh ((e.ansn : Int) - 256) e.ansn ansn then
    if e.seq = seq then some e
    else if e.ignored < 32 then some { e with ignored := e.ignored + 1 }
    else none
  else if !inHigh e.seq ((e.seq : Int) + 1024 * 8) seq ||
      !inLow e.ansn ((e.ansn : Int) + 256 * 4) ansn then
    match e.errSeq with
    | none => some { e with errSeq := some seq }
    | some x => if x = seq then some e else none
  else none

/-- The whole test: entries without edges, and originators without entry, accept everything
(tc_set.c 831). -/
def judge (e : Option Entry) (seq ansn : Nat) : Option Entry :=
  match e with
  | none => none
  | some e => if e.edges = [] then none else judgeEntry e seq ansn

/-- Whether the edge tree has an edge to the address (`olsr_lookup_tc_edge`, tc_set.c 680-688). -/
def known (es : List Edge) (a : List Nat) : Bool := es.any (fun e => e.dest == a)

/-- Change a known edge (tc_set.c 647-654). -/
def replaceEdge (e : Edge) (es : List Edge) : List Edge := es.map (fun x => if x.dest = e.dest then e else x)

/-- Insert a new edge in the edge tree (tc_set.c 449-457): before the first that compares greater. -/
def insertEdge (k : List Nat → Nat) (e : Edge) : List Edge → List Edge
  | [] => [e]
  | x :: xs => if k x.dest > k e.dest then e :: x :: xs else x :: insertEdge k e xs

/-- Set the ANSN of a known edge and leave its quality (tc_set.c 647). -/
def touchEdge (a : List Nat) (ansn : Nat) (es : List Edge) : List Edge :=
  es.map (fun x => if x.dest = a then { x with ansn := ansn } else x)

/-- `olsr_tc_update_edge` (tc_set.c 611-671) on the rest of the message: the edges afterwards, the
address, and the rest.  `none` is a read beyond the message: of the address, or of the two bytes that
the link quality plugin reads before it skips two more (lq_plugin_default_ff.c 338-346). -/
def updateEdge (env : Env) (ansn : Nat) (es : List Edge) (m : List Nat) :
    Option (List Edge × List Nat × List Nat) :=
  if m.length < env.ipsize then none
  else if known es (m.take env.ipsize) then
    if env.lqLevel = 0 then
      some (touchEdge (m.take env.ipsize) ansn es, m.take env.ipsize, m.drop env.ipsize)
    else if m.length < env.ipsize + 2 then none
    else
      some (replaceEdge ⟨m.take env.ipsize, ansn, m.getD env.ipsize 0, m.getD (env.ipsize + 1) 0⟩ es,
        m.take env.ipsize, m.drop (env.ipsize + 4))
  else if env.valid (m.take env.ipsize) = false then
    some (es, m.take env.ipsize, m.drop env.ipsize)
  else if m.length < env.ipsize + 2 then none
  else
    some (insertEdge env.key
        ⟨m.take env.ipsize, ansn, m.getD env.ipsize 0, m.getD (env.ipsize + 1) 0⟩ es,
      m.take env.ipsize, m.drop (env.ipsize + 4))

/-- Remember the first and the last address (`lower_border_ip`, `upper_border_ip`). -/
def bump (b : Option (List Nat × List Nat)) (a : List Nat) : Option (List Nat × List Nat) :=
  match b with
  | none => some (a, a)
  | some (f, _) => some (f, a)

/-- The loop over the edges (tc_set.c 885-897).  `fuel` bounds the iterations; every iteration
consumes an address, so the length of the message is enough. -/
def walk (env : Env) (ansn : Nat) : Nat → List Edge → Option (List Nat × List Nat) → List Nat →
    Option (List Edge × Option (List Nat × List Nat))
  | _, es, b, [] => some (es, b)
  | 0, _, _, _ :: _ => none
  | fuel + 1, es, b, x :: m =>
    match updateEdge env ansn es (x :: m) with
    | none => none
    | some (es', a, rest) => walk env ansn fuel es' (bump b a) rest

/-- `olsr_delete_revoked_tc_edges` (tc_set.c 565-598); the flag is `passedLowerBorder`. -/
def revoke (k : List Nat → Nat) (ansn : Nat) (lo hi : List Nat) : Bool → List Edge → List Edge
  | _, [] => []
  | passed, e :: es =>
    if passed = false ∧ k lo > k e.dest then e :: revoke k ansn lo hi false es
    else if k hi ≤ k e.dest then e :: es
    else if Seqno.greater ansn e.ansn then revoke k ansn lo hi true es
    else e :: revoke k ansn lo hi true es

/-- The borders (tc_set.c 899-917): `some none` if there are none. -/
def borders (env : Env) (h : Hdr) (b : Option (List Nat × List Nat)) :
    Option (Option (List Nat × List Nat)) :=
  match b with
  | none =>
    if h.lower = 0xff ∧ h.upper = 0xff then
      some (some (List.replicate env.ipsize 0, List.replicate env.ipsize 0xff))
    else some none
  | some (f, l) => calcBorders h.lower h.upper f l

/-- The entry after an accepted message (tc_set.c 870-877). -/
def stored (h : Hdr) (es : List Edge) (gc : Bool) : Entry :=
  { seq := h.seq, ansn := h.ansn, ignored := 0, errSeq := none, edges := es, gc := gc }

/-- The end of `olsr_input_tc` (tc_set.c 899-946): revoke edges inside the borders, or start the
garbage collection; an empty message with borders deletes the entry. -/
def finish (env : Env) (t : Tab) (h : Hdr) (es : List Edge) (b : Option (List Nat × List Nat))
    (gc : Bool) : Res (Tab × Bool) :=
  match borders env h b with
  | none => .badWrite
  | some none => .ok (set t h.orig (some (stored h es true)), true)
  | some (some (lo, hi)) =>
    if b = none then .ok (set t h.orig none, true)
    else .ok (set t h.orig (some (stored h (revoke env.key h.ansn lo hi false es) gc)), true)

/-- The edges of an entry. -/
def edgesOf (e : Option Entry) : List Edge :=
  match e with
  | none => []
  | some e => e.edges

/-- Whether the garbage collection timer of an entry runs. -/
def gcOf (e : Option Entry) : Bool :=
  match e with
  | none => false
  | some e => e.gc

/-- `olsr_input_tc` (tc_set.c 774-949).  `sym` is `check_neighbor_link(from_addr) == SYM_LINK`.  The
result tells whether the message may be forwarded. -/
def inputTc (env : Env) (sym : Bool) (t : Tab) (m : List Nat) : Res (Tab × Bool) :=
  if m.getD 0 0 ≠ 202 ∧ m.getD 0 0 ≠ 2 then .ok (t, false)
  else if sym = false then .ok (t, false)
  else
    match readHdr env.ipsize m with
    | none => .overread
    | some (h, body) =>
      match judge (t h.orig) h.seq h.ansn with
      | some e => .ok (set t h.orig (some e), false)
      | none =>
        if t h.orig = none ∧ env.mainZero = true then .nullDeref
        else
          match walk env h.ansn body.length (edgesOf (t h.orig)) none body with
          | none => .overread
          | some (es, b) => finish env t h es b (gcOf (t h.orig))

/-- `olsr_expire_tc_edge_gc` and `olsr_delete_outdated_tc_edges` (tc_set.c 389-404, 538-553). -/
def expireGc (t : Tab) (a : List Nat) : Tab :=
  match t a with
  | none => t
  | some e =>
    if e.gc then
      set t a (some { e with edges := e.edges.filter (fun x => !Seqno.greater e.ansn x.ansn)
                             gc := false })
    else t

/-- `olsr_expire_tc_entry` (tc_set.c 368-382). -/
def expireEntry (t : Tab) (a : List Nat) : Tab := set t a none

/-- What happens to the topology set. -/
inductive Ev where
  | msg (sym : Bool) (m : List Nat)
  | gc (a : List Nat)
  | expire (a : List Nat)

/-- One event; `none` is undefined behaviour. -/
def step (env : Env) (t : Tab) : Ev → Option Tab
  | .msg sym m =>
    match inputTc env sym t m with
    | .ok (t', _) => some t'
    | _ => none
  | .gc a => some (expireGc t a)
  | .expire a => some (expireEntry t a)

/-- A sequence of events. -/
def run (env : Env) (t : Tab) : List Ev → Option Tab
  | [] => some t
  | e :: es =>
    match step env t e with
    | none => none
    | some t' => run env t' es

/-- The body of a TC message without link quality (`serialize_tc4`, `serialize_tc6`, build_msg.c
576-682, 693-783), sent with LQ level 0: the addresses only, in a message of type 2 with a reserved
field that is zero. -/
def encodeRfc (h : Hdr) (as : List (List Nat)) : List Nat :=
  [2, h.vtime] ++ be16 (off h.orig.length + as.length * h.orig.length) ++ h.orig ++
    [h.ttl, h.hops] ++ be16 h.seq ++ be16 h.ansn ++ [0, 0] ++ as.flatten

end Verif.TcSet
