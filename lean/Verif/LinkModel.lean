/-
Model of the link set and of the status of the neighbours that depends on it
(src/link_set.c, src/neighbor_table.c).

What is left out:
* hysteresis (`olsr_cnf->use_hysteresis` false, the default), link costs and the loss timer;
* the change of the main address of a known neighbour (link_set.c 667-675,
  `olsr_update_neighbor_main_addr`): such a HELLO gives `none`;
* the expiry instants: any running timer may fire at any moment, which is a superset of the real
  orders;
* the two hop lists that go with a neighbour entry (see C22-C24 for these).
The MID table is not part of the state: each operation is given the MID table that is in force when
it happens (see `Mid`).
-/
namespace Verif.Link

/-- Link status codes a HELLO announces for our address: UNSPEC_LINK, ASYM_LINK, SYM_LINK,
LOST_LINK (src/olsr_protocol.h 107-111; HIDE_LINK occurs only with hysteresis). -/
inductive Status where
  | unspec | asym | sym | lost
  deriving DecidableEq, Repr

/-- `struct link_entry` (src/link_set.h 62-99): remote interface address, receiving interface,
the neighbour entry pointed to (named by its main address), whether `link_sym_timer` is running,
and `prev_status`. -/
structure Link where
  remote : Nat
  iface : Nat
  nbr : Nat
  symTimer : Bool
  prev : Status
  deriving DecidableEq, Repr

/-- `struct neighbor_entry` (src/neighbor_table.h 63-75): `status == SYM` and `linkcount`. -/
structure Nbr where
  sym : Bool
  count : Nat
  deriving DecidableEq, Repr

/-- The link list `link_entry_head`, the neighbour table by main address, and the interface list
`ifnet` (link_set.c 66, neighbor_table.c 54, interfaces.c). -/
structure State where
  links : List Link
  nbrs : Nat → Option Nbr
  ifs : List Nat

/-- What is used of the MID table: `mid_lookup_main_addr` (none = NULL) and the list behind
`mid_lookup_aliases` (mid_set.c 329-379). -/
structure Mid where
  main : Nat → Option Nat
  aliases : Nat → List Nat

/-- `lookup_link_entry(remote, NULL, local)` (link_set.c 659-682): the first link with that remote
address on that interface. -/
def lookupLink (s : State) (remote iface : Nat) : Option Link :=
  s.links.find? (fun l => l.remote == remote && l.iface == iface)

/-- `lookup_link_status(entry) == SYM_LINK` (link_set.c 123-172) without hysteresis. -/
def linkIsSym (l : Link) : Bool := l.symTimer

/-- The test made twice in the loop of `get_neighbor_status` (link_set.c 194-208). -/
def symAt (s : State) (addr iface : Nat) : Bool :=
  match lookupLink s addr iface with
  | some l => linkIsSym l
  | none => false

/-- The first lines of `get_neighbor_status` (link_set.c 187-189): the main address of `addr`. -/
def mainOf (mid : Mid) (addr : Nat) : Nat :=
  match mid.main addr with
  | some m => m
  | none => addr

/-- `get_neighbor_status(address) == SYM_LINK` (link_set.c 181-212). -/
def neighborStatus (mid : Mid) (s : State) (addr : Nat) : Bool :=
  s.ifs.any (fun i =>
    symAt s (mainOf mid addr) i ||
    (mid.aliases (mainOf mid addr)).any (fun a => symAt s a i))

/-- Point update of the neighbour table. -/
def setNbr (f : Nat → Option Nbr) (n : Nat) (v : Option Nbr) : Nat → Option Nbr :=
  fun m => if m = n then v else f m

/-- `update_neighbor_status(entry, lnk)` (neighbor_table.c 320-355) as far as the status goes: SYM
exactly if the link status handed in is SYM_LINK. -/
def updateStatus (s : State) (n : Nat) (sym : Bool) : State :=
  match s.nbrs n with
  | some b => { s with nbrs := setNbr s.nbrs n (some { b with sym := sym }) }
  | none => s

/-- `add_link_entry` (link_set.c 531-628) for a link that is not there: the link is appended with
`prev_status = ASYM_LINK`, the neighbour entry is found or inserted with status NOT_SYM
(neighbor_table.c 236-274), and `linkcount` goes up by one. -/
def addLink (s : State) (remote iface src : Nat) : State :=
  { s with
    links := s.links ++ [{ remote := remote, iface := iface, nbr := src, symTimer := false,
                           prev := .asym }]
    nbrs := setNbr s.nbrs src
      (match s.nbrs src with
       | some b => some { b with count := b.count + 1 }
       | none => some { sym := false, count := 1 }) }

/-- The switch of `update_link_entry` (link_set.c 708-727) on one link. -/
def applyStatus (st : Status) (l : Link) : Link :=
  match st with
  | .lost => { l with prev := st, symTimer := false }
  | .sym => { l with prev := st, symTimer := true }
  | .asym => { l with prev := st, symTimer := true }
  | .unspec => { l with prev := st }

/-- Change the link with the given key. -/
def modifyLink (s : State) (remote iface : Nat) (f : Link → Link) : State :=
  { s with links := s.links.map (fun l =>
      if l.remote = remote ∧ l.iface = iface then f l else l) }

/-- `update_link_entry` (link_set.c 695-742) for a HELLO of `src` received from `remote` over
`iface` announcing status `st` for our address.  `none`: the link is known with another main
address. -/
def hello (mid : Mid) (s : State) (remote iface src : Nat) (st : Status) : Option State :=
  match lookupLink s remote iface with
  | some l =>
    if l.nbr = src then
      let s' := modifyLink s remote iface (applyStatus st)
      some (updateStatus s' src (neighborStatus mid s' remote))
    else none
  | none =>
    let s' := modifyLink (addLink s remote iface src) remote iface (applyStatus st)
    some (updateStatus s' src (neighborStatus mid s' remote))

/-- `olsr_expire_link_sym_timer` (link_set.c 446-461).  After the expiry `lookup_link_status` says
ASYM_LINK or LOST_LINK, according to the ASYM time; `heard` is whether that is still running. -/
def symExpire (mid : Mid) (s : State) (l : Link) (heard : Bool) : State :=
  let s1 := modifyLink s l.remote l.iface (fun x => { x with symTimer := false })
  if l.prev ≠ .sym then s1
  else
    let s2 := modifyLink s1 l.remote l.iface
      (fun x => { x with prev := if heard then .asym else .lost })
    updateStatus s2 l.nbr (neighborStatus mid s2 l.remote)

/-- `olsr_delete_link_entry` (link_set.c 368-402). -/
def deleteLink (s : State) (l : Link) : State :=
  { s with
    links := s.links.filter (fun x => !(x.remote == l.remote && x.iface == l.iface))
    nbrs :=
      match s.nbrs l.nbr with
      | some b =>
        if b.count = 1 then setNbr s.nbrs l.nbr none
        else setNbr s.nbrs l.nbr (some { b with count := b.count - 1 })
      | none => s.nbrs }

/-- `olsr_delete_link_entry_by_ip` (link_set.c 407-422) called by `olsr_remove_interface`, which
then takes the interface out of `ifnet` (interfaces.c 387-406). -/
def removeInterface (s : State) (i : Nat) : State :=
  let s' := (s.links.filter (fun l => l.iface == i)).foldl deleteLink s
  { s' with ifs := s'.ifs.filter (fun j => j != i) }

/-- The events that act on the link set. -/
inductive Op where
  /-- a HELLO arrives over an interface we have -/
  | hello (mid : Mid) (remote iface src : Nat) (st : Status)
  /-- the sym timer of a link fires -/
  | symExpire (mid : Mid) (remote iface : Nat) (heard : Bool)
  /-- the link timer of a link fires (`olsr_expire_link_entry`, link_set.c 494-503) -/
  | linkExpire (remote iface : Nat)
  /-- a local interface appears -/
  | addInterface (i : Nat)
  /-- a local interface goes away -/
  | removeInterface (i : Nat)

/-- One event; `none` if it cannot happen in this state (no such timer, no such interface) or is
outside the model. -/
def step (s : State) : Op → Option State
  | .hello mid r i src st => if i ∈ s.ifs then hello mid s r i src st else none
  | .symExpire mid r i heard =>
    match lookupLink s r i with
    | some l => if l.symTimer then some (symExpire mid s l heard) else none
    | none => none
  | .linkExpire r i =>
    match lookupLink s r i with
    | some l => some (deleteLink s l)
    | none => none
  | .addInterface i => if i ∈ s.ifs then none else some { s with ifs := i :: s.ifs }
  | .removeInterface i => some (removeInterface s i)

/-- Nothing known yet (`olsr_init_link_set`, `olsr_init_neighbor_table`). -/
def init : State := { links := [], nbrs := fun _ => none, ifs := [] }

/-- A sequence of events. -/
def run (s : State) : List Op → Option State
  | [] => some s
  | o :: os =>
    match step s o with
    | some s' => run s' os
    | none => none

/-- The part of a link that `get_best_link_to_neighbor` looks at (link_set.c 217-312, LQ case):
neighbour, cost, the tie-break `ipequal(&walker->local_iface_addr, remote)`, and whether it is
symmetric. -/
structure Cand where
  nbr : Nat
  cost : Nat
  tie : Bool
  sym : Bool
  deriving DecidableEq, Repr

/-- LINK_COST_BROKEN, 1 << 22 (lq_plugin.h 56). -/
def broken : Nat := 4194304

/-- Loop body of `get_best_link_to_neighbor` with `lq_level > 0` (link_set.c 284-302).  The state is
`(curr_lcost, good_link, backup_link)`. -/
def bestStep (main : Nat) (c : Nat × Option Cand × Option Cand) (w : Cand) :
    Nat × Option Cand × Option Cand :=
  if w.nbr = main then
    if w.cost < c.1 ∨ (w.cost = c.1 ∧ w.tie = true) then
      if w.sym then (w.cost, some w, c.2.2) else (w.cost, c.2.1, some w)
    else c
  else c

/-- `get_best_link_to_neighbor` (link_set.c 217-312), `lq_level > 0`. -/
def bestLink (main : Nat) (ls : List Cand) : Option Cand :=
  match ls.foldl (bestStep main) (broken, none, none) with
  | (_, some g, _) => some g
  | (_, none, b) => b

end Verif.Link
