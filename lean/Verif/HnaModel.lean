import Verif.BuildMsgModel
/-!
# Model of the HNA set and of the prefixes hanging off the topology entries

`src/hna_set.c` (the table, `olsr_update_hna_entry`, expiry, `olsr_cleanup_hna`), the functions
`olsr_insert_routing_table` and `olsr_delete_routing_table` of `src/routing_table.c`, and those parts of
`src/tc_set.c` and `src/mid_set.c` that call them.

What is left out:
* hash buckets: all HNA entries are one list, newest first; an address always goes to the same bucket, so the
  order among entries that can match is the same;
* the edges of a topology entry and its reference counter (C64), the smart gateway tree (C32, C54), the
  neighbour tables (C81);
* the AVL trees are maps (C29): `tc` tells which topology entries exist and `path o p` is the origin of the
  `rt_path` for the prefix `p` in the `prefix_tree` of the entry `o`;
* of a MID entry only the pairs (alias, main address) are kept; when they come and go is arbitrary;
* time is a number that does not wrap (C07, C08 say what the timers make of the 32 bit clock).
-/
namespace Verif.Hna

/-- `struct olsr_ip_prefix` (olsr_types.h 121-124); an address is the list of its bytes. -/
structure Pfx where
  net : List Nat
  len : Nat
  deriving DecidableEq, Repr

/-- `struct hna_net` (hna_set.h 57-63); `timer` is the time at which `hna_net_timer` is due, `none` is no
timer. -/
structure Net where
  pfx : Pfx
  timer : Option Nat
  deriving DecidableEq, Repr

/-- `struct hna_entry` (hna_set.h 67-72). -/
structure Ent where
  gw : List Nat
  nets : List Net
  deriving DecidableEq, Repr

/-- `OLSR_RT_ORIGIN_*` (routing_table.h 126-132). -/
inductive Origin where
  | int | mid | hna
  deriving DecidableEq, Repr

/-- `hna_set`, `tc_tree` with the prefix trees, the registered aliases (alias, main address), and the flags
`changes_hna` and `changes_topology` (olsr.c 79-81). -/
structure St where
  ents : List Ent
  tc : List Nat → Bool
  path : List Nat → Pfx → Option Origin
  mids : List (List Nat × List Nat)
  chHna : Bool
  chTopo : Bool

/-- `olsr_cnf->maxplen` and whether `olsr_cnf->main_addr` is not all zero. -/
structure Cfg where
  maxplen : Nat
  mainSet : Bool

/-- After `olsr_init_hna_set` (hna_set.c 65-85): empty tables. -/
def init : St :=
  { ents := [], tc := fun _ => false, path := fun _ _ => none, mids := [], chHna := false, chTopo := false }

/-- The prefix of a single host. -/
def host (c : Cfg) (a : List Nat) : Pfx := { net := a, len := c.maxplen }

/-- `olsr_alloc_rt_path` (routing_table.c 262-289) if there is none yet, with the flag (routing_table.c
570-590). -/
def addPath (s : St) (o : List Nat) (p : Pfx) (k : Origin) : St :=
  match s.path o p with
  | some _ => s
  | none =>
    { s with
      path := fun o' p' => if o' = o ∧ p' = p then some k else s.path o' p'
      chHna := true }

/-- `olsr_add_tc_entry` (tc_set.c 137-183): empty prefix tree, then the path to the host itself; NULL without a
main address. -/
def addTc (c : Cfg) (s : St) (a : List Nat) : Option St :=
  if c.mainSet then
    some (addPath { s with tc := fun x => if x = a then true else s.tc x
                           path := fun o p => if o = a then none else s.path o p } a (host c a) .int)
  else none

/-- `olsr_locate_tc_entry` (tc_set.c 334-343). -/
def locateTc (c : Cfg) (s : St) (a : List Nat) : Option St :=
  if s.tc a then some s else addTc c s a

/-- `olsr_insert_routing_table` (routing_table.c 536-594). -/
def insertRoute (c : Cfg) (s : St) (p : Pfx) (o : List Nat) (k : Origin) : St :=
  if p.len > c.maxplen then s
  else
    match locateTc c s o with
    | none => s
    | some s1 => addPath s1 o p k

/-- `olsr_delete_rt_path` (routing_table.c 348-382) as far as the prefix tree goes, with the flag
(routing_table.c 630-641). -/
def delPath (s : St) (o : List Nat) (p : Pfx) : St :=
  match s.path o p with
  | none => s
  | some _ =>
    { s with
      path := fun o' p' => if o' = o ∧ p' = p then none else s.path o' p'
      chHna := true }

/-- `olsr_delete_routing_table` (routing_table.c 598-642). -/
def deleteRoute (c : Cfg) (s : St) (p : Pfx) (o : List Nat) : St :=
  if p.len > c.maxplen then s
  else if s.tc o then delPath s o p
  else s

/-- `olsr_lookup_hna_gw` (hna_set.c 129-145). -/
def lookupGw (es : List Ent) (gw : List Nat) : Option Ent := es.find? (fun e => e.gw == gw)

/-- `olsr_lookup_hna_net` (hna_set.c 107-121). -/
def lookupNet (ns : List Net) (p : Pfx) : Option Net := ns.find? (fun n => n.pfx == p)

/-- `olsr_add_hna_entry` (hna_set.c 154-178) when the lookup found none (hna_set.c 282-287). -/
def withGw (es : List Ent) (gw : List Nat) : List Ent :=
  match lookupGw es gw with
  | some _ => es
  | none => { gw := gw, nets := [] } :: es

/-- Apply `f` to the networks of the entry that a lookup of `gw` finds. -/
def modGw (es : List Ent) (gw : List Nat) (f : List Net → List Net) : List Ent :=
  match es with
  | [] => []
  | e :: rest => if e.gw = gw then { e with nets := f e.nets } :: rest else e :: modGw rest gw f

/-- `olsr_add_hna_net` (hna_set.c 189-213) when the lookup found none (hna_set.c 289-295). -/
def withNet (ns : List Net) (p : Pfx) : List Net :=
  match lookupNet ns p with
  | some _ => ns
  | none => { pfx := p, timer := none } :: ns

/-- `olsr_set_timer` (scheduler.c 1052-1073): a time of zero stops the timer.  `delay` is what the jitter has
left of `vtime`. -/
def newTimer (now vtime delay : Nat) : Option Nat := if vtime = 0 then none else some (now + delay)

/-- The timer of the network that a lookup of `p` finds is set. -/
def setTimer (ns : List Net) (p : Pfx) (t : Option Nat) : List Net :=
  match ns with
  | [] => []
  | n :: rest => if n.pfx = p then { n with timer := t } :: rest else n :: setTimer rest p t

/-- `olsr_lookup_hna_net` as far as the flag is concerned: is the network known? -/
def known (es : List Ent) (gw : List Nat) (p : Pfx) : Bool :=
  match lookupGw es gw with
  | some e => (lookupNet e.nets p).isSome
  | none => false

/-- `olsr_update_hna_entry` (hna_set.c 276-309). -/
def update (c : Cfg) (s : St) (gw : List Nat) (p : Pfx) (now vtime delay : Nat) : St :=
  insertRoute c
    { s with
      ents := modGw (withGw s.ents gw) gw (fun ns => setTimer (withNet ns p) p (newTimer now vtime delay))
      chHna := s.chHna || !known s.ents gw p }
    p gw .hna

/-- `DEQUEUE_ELEM(net_to_delete)` and, if that was the last network, `DEQUEUE_ELEM(hna_gw)` (hna_set.c
243-250). -/
def dropNet (es : List Ent) (gw : List Nat) (p : Pfx) : List Ent :=
  match es with
  | [] => []
  | e :: rest =>
    if e.gw = gw then
      if (e.nets.eraseP (fun n => n.pfx == p)).isEmpty then rest
      else { e with nets := e.nets.eraseP (fun n => n.pfx == p) } :: rest
    else e :: dropNet rest gw p

/-- `olsr_delete_hna_net_entry` (hna_set.c 215-254). -/
def deleteNet (c : Cfg) (s : St) (gw : List Nat) (p : Pfx) : St :=
  { deleteRoute c s p gw with ents := dropNet s.ents gw p }

/-- `olsr_cleanup_hna` (hna_set.c 87-96): the networks of the gateway are deleted one by one, from the front,
until the entry itself is gone. -/
def cleanupHna (c : Cfg) (s : St) (gw : List Nat) : St :=
  match lookupGw s.ents gw with
  | none => s
  | some e => e.nets.foldl (fun s n => deleteNet c s gw n.pfx) s

/-- The loop of `olsr_input_mid` for one alias (mid_set.c 616-622): an unknown alias is registered with its path
(`insert_mid_tuple`, mid_set.c 182), a known one — whoever has it — only gets the path. -/
def midSeen (c : Cfg) (s : St) (main a : List Nat) : St :=
  if s.mids.any (fun x => x.1 == a) then insertRoute c s (host c a) main .mid
  else insertRoute c { s with mids := (a, main) :: s.mids } (host c a) main .mid

/-- One alias leaves: `olsr_prune_aliases` (mid_set.c 464-485) and `olsr_delete_mid_entry` (mid_set.c 504-515). -/
def midGone (c : Cfg) (s : St) (main a : List Nat) : St :=
  if s.mids.contains (a, main) then
    deleteRoute c { s with mids := s.mids.erase (a, main) } (host c a) main
  else s

/-- `olsr_delete_tc_entry` (tc_set.c 281-313): the path to the host itself, then all other paths, without the
flag, then the entry. -/
def delTc (c : Cfg) (s : St) (a : List Nat) : St :=
  if s.tc a then
    { deleteRoute c s (host c a) a with
      tc := fun x => if x = a then false else s.tc x
      path := fun o p => if o = a then none else s.path o p }
  else s

/-- `olsr_expire_tc_entry` (tc_set.c 367-382); the same for a change of the main address (tc_set.c 226-256),
which also sets the flag. -/
def expireTc (c : Cfg) (s : St) (a : List Nat) : St := { delTc c s a with chTopo := true }

/-- The end of `olsr_input_tc` for an empty TC that covers all addresses (tc_set.c 935-944): all aliases
(`olsr_cleanup_mid`, mid_set.c 98-104) and networks of the originator go, then its entry. -/
def emptyTc (c : Cfg) (s : St) (a : List Nat) : St :=
  let s1 := (s.mids.filter (fun x => x.2 == a)).foldl (fun s x => midGone c s a x.1) s
  delTc c (cleanupHna c s1 a) a

/-- The events of one HNA message (`BuildMsg.inputHna`) applied to the tables: the loop of `olsr_input_hna`
(hna_set.c 436-479).  Gateway announcements go to another table.  `delay` is what the jitter leaves of `vtime`,
drawn for each network. -/
def message (c : Cfg) (gw : List Nat) (now vtime : Nat) (delay : Pfx → Nat) : St → List BuildMsg.Ev → St
  | s, [] => s
  | s, .update a l :: es => message c gw now vtime delay 
      (update c s gw { net := a, len := l } now vtime (delay { net := a, len := l })) es
  | s, _ :: es => message c gw now vtime delay s es

end Verif.Hna
