/-!
# Two-hop neighbours

`process_message_neighbors`, `linking_this_2_entries` and the part of `olsr_hello_tap` that calls them
(process_package.c 74-290, 518-552), the two-hop neighbour table (two_hop_neighbor_table.c), the lists of two-hop
neighbours in the neighbour table (neighbor_table.c) and the calls from mid_set.c.

Memory is a heap: a pointer is a number, a freed object is not on the heap any more.  Numbers are never used twice.
`none` as a result is a use of freed memory.  The counter `neighbor_2_pointer` (`int16_t`) is an unbounded integer:
there are fewer than 32768 neighbours.
-/
namespace Verif.TwoHop

/-- `LINK_COST_BROKEN` (lq_plugin.h 56). -/
def BROKEN : Nat := 4194304

/-- `struct neighbor_list_entry` (two_hop_neighbor_table.h 56-63): an entry of the list of one-hop neighbours of a
two-hop neighbour. -/
structure NbEnt where
  nbr : Nat
  second : Nat
  path : Nat
  saved : Nat
  deriving DecidableEq, Repr

/-- `struct neighbor_2_entry` (two_hop_neighbor_table.h 65-73). -/
structure Two where
  addr : Nat
  cnt : Int
  nb : List NbEnt
  deriving DecidableEq, Repr

/-- `struct neighbor_2_list_entry` (neighbor_table.h 53-59).  `lid` tells entries apart; `timer` is the time at which the
validity timer fires (without the jitter, see C09), or `none` when no timer runs. -/
structure L2 where
  lid : Nat
  two : Nat
  timer : Option Nat
  deriving DecidableEq, Repr

/-- `struct neighbor_entry` (neighbor_table.h 63-76). -/
structure Nbr where
  addr : Nat
  sym : Bool
  will : Nat
  list2 : List L2
  deriving DecidableEq, Repr

/-- The heap, the members of the neighbour table and of the two-hop neighbour table (the hash buckets together, newest
first), and the next free number. -/
structure St where
  nbr : Nat → Option Nbr
  two : Nat → Option Two
  nbrs : List Nat
  twos : List Nat
  next : Nat

/-- Both tables empty (neighbor_table.c 60-69, two_hop_neighbor_table.c 59-67). -/
def init : St := { nbr := fun _ => none, two := fun _ => none, nbrs := [], twos := [], next := 0 }

/-- The surroundings at the time of a call: the own interface addresses (`if_ifwithaddr`), `mid_lookup_main_addr`,
`mid_lookup_aliases` and the hash of an address. -/
structure Env where
  own : Nat → Bool
  main : Nat → Option Nat
  aliases : Nat → List Nat
  hash : Nat → Nat

/-- Change a neighbour entry. -/
def modNbr (s : St) (n : Nat) (f : Nbr → Nbr) : St :=
  { s with nbr := fun i => if i = n then (s.nbr i).map f else s.nbr i }

/-- Change a two-hop neighbour entry. -/
def modTwo (s : St) (t : Nat) (f : Two → Two) : St :=
  { s with two := fun i => if i = t then (s.two i).map f else s.two i }

/-- `DEQUEUE_ELEM` and `free` of a two-hop neighbour. -/
def freeTwo (s : St) (t : Nat) : St :=
  { s with two := fun i => if i = t then none else s.two i, twos := s.twos.filter (· != t) }

/-- `DEQUEUE_ELEM` and `free` of a neighbour. -/
def freeNbr (s : St) (n : Nat) : St :=
  { s with nbr := fun i => if i = n then none else s.nbr i, nbrs := s.nbrs.filter (· != n) }

/-- `olsr_lookup_my_neighbors` (neighbor_table.c 136-149).  `none`: a freed two-hop neighbour is read. -/
def scan (s : St) (a : Nat) : List L2 → Option (Option L2)
  | [] => some none
  | e :: r =>
    match s.two e.two with
    | none => none
    | some t => if t.addr = a then some (some e) else scan s a r

/-- Whether the entry is the one `olsr_lookup_two_hop_neighbor_table` looks for (two_hop_neighbor_table.c 161-175). -/
def isTwo (env : Env) (a : Nat) (t : Two) : Bool :=
  env.hash t.addr == env.hash a && (t.addr == a || (env.aliases t.addr).contains a)

/-- `olsr_lookup_two_hop_neighbor_table` (two_hop_neighbor_table.c 153-178). -/
def lookupTwo (env : Env) (s : St) (a : Nat) : Option Nat :=
  s.twos.find? (fun i => (s.two i).any (isTwo env a))

/-- `olsr_lookup_two_hop_neighbor_table_mid` (two_hop_neighbor_table.c 189-204). -/
def lookupTwoMid (s : St) (a : Nat) : Option Nat :=
  s.twos.find? (fun i => (s.two i).any (fun t => t.addr == a))

/-- `olsr_lookup_neighbor_table_alias` (neighbor_table.c 294-313). -/
def lookupNbr (s : St) (a : Nat) : Option Nat :=
  s.nbrs.find? (fun i => (s.nbr i).any (fun x => x.addr == a))

/-- `linking_this_2_entries` (process_package.c 256-290).  The entry was just allocated and is zero, so that
`olsr_change_timer` is called without a timer and does nothing (scheduler.c 1022-1025). -/
def link (s : St) (n t : Nat) : St :=
  let s1 := modTwo s t (fun x =>
    { x with cnt := x.cnt + 1, nb := { nbr := n, second := BROKEN, path := BROKEN, saved := BROKEN } :: x.nb })
  let s2 := modNbr s1 n (fun x => { x with list2 := { lid := s.next, two := t, timer := none } :: x.list2 })
  { s2 with next := s.next + 1 }

/-- A new two-hop neighbour (process_package.c 142-154). -/
def newTwo (s : St) (a : Nat) : St :=
  { s with two := fun i => if i = s.next then some { addr := a, cnt := 0, nb := [] } else s.two i
           twos := s.next :: s.twos, next := s.next + 1 }

/-- A neighbour of the sender as read from the message; `cost` is computed from the link quality in it. -/
structure Item where
  addr : Nat
  status : Nat
  cost : Nat
  deriving DecidableEq, Repr

/-- `SYM_NEIGH` or `MPR_NEIGH` (olsr_protocol.h 140-142). -/
def symMpr (m : Item) : Bool := m.status == 1 || m.status == 2

/-- The main address is put into the message (process_package.c 94-99). -/
def mainOf (env : Env) (a : Nat) : Nat := (env.main a).getD a

/-- `olsr_set_timer` on the validity timer (process_package.c 107-109; scheduler.c 1053-1073). -/
def setTimer (s : St) (n lid : Nat) (now vtime : Nat) : St :=
  modNbr s n (fun x => { x with list2 := x.list2.map (fun e =>
    if e.lid = lid then { e with timer := if vtime = 0 then none else some (now + vtime) } else e) })

/-- The path cost of the sender is reset (process_package.c 118-138). -/
def resetCost (s : St) (n t : Nat) : St :=
  modTwo s t (fun x => { x with nb := x.nb.map (fun e => if e.nbr = n then { e with path := BROKEN } else e) })

/-- One round of the first loop (process_package.c 79-168). -/
def pass1 (env : Env) (lq : Bool) (n now vtime : Nat) (s : St) (m : Item) : Option St :=
  if env.own m.addr then some s
  else if symMpr m then
    match s.nbr n with
    | none => none
    | some x =>
      match scan s (mainOf env m.addr) x.list2 with
      | none => none
      | some (some e) =>
        if lq then some (resetCost (setTimer s n e.lid now vtime) n e.two) else some (setTimer s n e.lid now vtime)
      | some none =>
        match lookupTwo env s (mainOf env m.addr) with
        | none => some (link (newTwo s (mainOf env m.addr)) n s.next)
        | some t => some (link s n t)
  else some s

/-- The address of the entry after the first loop. -/
def rewritten (env : Env) (m : Item) : Item :=
  if env.own m.addr then m else { m with addr := mainOf env m.addr }

/-- A better path cost is stored (process_package.c 218-240).  `olsr_linkcost` is `uint32_t`. -/
def better (first cost : Nat) (e : NbEnt) : NbEnt :=
  if (first + cost) % 4294967296 < e.path then
    { e with second := cost, path := (first + cost) % 4294967296, saved := (first + cost) % 4294967296 }
  else e

/-- One round of the second loop (process_package.c 191-243), on the rewritten entry. -/
def pass2 (env : Env) (n first : Nat) (s : St) (m : Item) : Option St :=
  if env.own m.addr then some s
  else if symMpr m then
    match s.nbr n with
    | none => none
    | some x =>
      match scan s m.addr x.list2 with
      | none => none
      | some none => some s
      | some (some e) =>
        some (modTwo s e.two (fun t => { t with nb := t.nb.map (fun b => if b.nbr = n then better first m.cost b else b) }))
  else some s

/-- A loop that may fail. -/
def loop {α : Type} (f : St → α → Option St) : St → List α → Option St
  | s, [] => some s
  | s, a :: r =>
    match f s a with
    | none => none
    | some s' => loop f s' r

/-- `process_message_neighbors` (process_package.c 74-247).  `first` is the cost of the best link to the sender
(`get_best_link_to_neighbor`, see C58). -/
def processNbrs (env : Env) (lq : Bool) (first : Option Nat) (n now vtime : Nat) (s : St) (ms : List Item) : Option St :=
  match loop (pass1 env lq n now vtime) s ms with
  | none => none
  | some s1 =>
    if lq then
      match first with
      | none => some s1
      | some c => loop (pass2 env n c) s1 (ms.map (rewritten env))
    else some s1

/-- `olsr_hello_tap` from line 527 (process_package.c 527-541): the willingness is stored; neighbours of a sender that
announces `WILL_NEVER` (0) are not registered. -/
def hello (env : Env) (lq : Bool) (first : Option Nat) (n now vtime will : Nat) (s : St) (ms : List Item) : Option St :=
  match s.nbr n with
  | none => none
  | some _ =>
    let s1 := modNbr s n (fun x => { x with will := will })
    if will = 0 then some s1 else processNbrs env lq first n now vtime s1 ms

/-- `olsr_del_nbr2_list` (neighbor_table.c 74-99) on the entry `e` of neighbour `n`. -/
def delL2 (s : St) (n : Nat) (e : L2) : Option St :=
  match s.two e.two with
  | none => none
  | some t =>
    let s1 := if t.cnt < 1 then freeTwo s e.two else s
    some (modNbr s1 n (fun x => { x with list2 := x.list2.filter (fun y => y.lid != e.lid) }))

/-- `olsr_delete_neighbor_pointer` (two_hop_neighbor_table.c 80-97). -/
def delNbrPtr (s : St) (t n : Nat) : Option St :=
  match s.two t with
  | none => none
  | some _ => some (modTwo s t (fun x => { x with nb := x.nb.filter (fun b => b.nbr != n) }))

/-- The counter, both lists: `olsr_expire_nbr2_list` (neighbor_table.c 357-374) and the body of the loop in
`olsr_delete_neighbor_table` (neighbor_table.c 204-211). -/
def unlink (n : Nat) (s : St) (e : L2) : Option St :=
  match s.two e.two with
  | none => none
  | some _ =>
    match delNbrPtr (modTwo s e.two (fun x => { x with cnt := x.cnt - 1 })) e.two n with
    | none => none
    | some s1 => delL2 s1 n e

/-- `olsr_delete_neighbor_table` (neighbor_table.c 176-226). -/
def delNbr (s : St) (a : Nat) : Option St :=
  match lookupNbr s a with
  | none => some s
  | some n =>
    match s.nbr n with
    | none => none
    | some x =>
      match loop (unlink n) s x.list2 with
      | none => none
      | some s1 => some (freeNbr s1 n)

/-- `olsr_delete_neighbor_2_pointer` (neighbor_table.c 109-124). -/
def delTwoPtr (t : Nat) (s : St) (n : Nat) : Option St :=
  match s.nbr n with
  | none => none
  | some x =>
    match x.list2.find? (fun e => e.two == t) with
    | none => some s
    | some e => delL2 s n e

/-- `olsr_delete_two_hop_neighbor_table` (two_hop_neighbor_table.c 106-127). -/
def delTwo (s : St) (t : Nat) : Option St :=
  match s.two t with
  | none => none
  | some x =>
    match loop (delTwoPtr t) s (x.nb.map NbEnt.nbr) with
    | none => none
    | some s1 =>
      match s1.two t with
      | none => none
      | some _ => some (freeTwo s1 t)

/-- `olsr_insert_neighbor_table` (neighbor_table.c 236-272). -/
def insNbr (s : St) (a : Nat) : St :=
  match lookupNbr s a with
  | some _ => s
  | none =>
    { s with nbr := fun i => if i = s.next then some { addr := a, sym := false, will := 0, list2 := [] } else s.nbr i
             nbrs := s.next :: s.nbrs, next := s.next + 1 }

/-- `update_neighbor_status` (neighbor_table.c 320-352). -/
def setStatus (env : Env) (s : St) (n : Nat) (sym : Bool) : Option St :=
  match s.nbr n with
  | none => none
  | some x =>
    if sym ∧ x.sym = false then
      match lookupTwo env s x.addr with
      | none => some (modNbr s n (fun x => { x with sym := true }))
      | some t =>
        match delTwo s t with
        | none => none
        | some s1 => some (modNbr s1 n (fun x => { x with sym := true }))
    else some (modNbr s n (fun x => { x with sym := sym }))

/-- The two-hop neighbour with the address of a new alias is deleted (mid_set.c 222-230). -/
def midTwo (s : St) (a : Nat) : Option St :=
  match lookupTwoMid s a with
  | none => some s
  | some t => delTwo s t

/-- The neighbour entry of an alias is deleted in favour of the one of the main address (mid_set.c 232-247): it is
dequeued and freed, nothing else.  Its list of two-hop neighbours is lost. -/
def midNbr (s : St) (other main : Nat) : St :=
  match lookupNbr s other with
  | none => s
  | some n =>
    match lookupNbr s main with
    | none => s
    | some _ => freeNbr s n

/-- `olsr_update_neighbor_main_addr` (neighbor_table.c 155-168). -/
def rename (s : St) (n a : Nat) : St := modNbr s n (fun x => { x with addr := a })

/-- The walk over the one-hop neighbours of every two-hop neighbour in `olsr_calculate_lq_mpr` (lq_mpr.c 122-146), with a two-hop
neighbour that is not a neighbour: the one-hop neighbours are read and written. -/
def mprWalk (s : St) : Option Unit :=
  if s.twos.all (fun t => (s.two t).any (fun x => x.nb.all (fun b => (s.nbr b.nbr).isSome))) then some () else none

end Verif.TwoHop
