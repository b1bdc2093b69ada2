/-
Model of the MID set (src/mid_set.c) together with the part of the link set and of the neighbour
table that it manipulates (src/link_set.c, src/neighbor_table.c, `olsr_hello_tap` in
src/process_package.c): which link points at which neighbour entry, and the link counters.

What is left out:
* validity times: MID entries may expire at any moment, and which aliases have outlived their own
  time when a message arrives is given with the message;
* the routing table entries for aliases (C27) and the two hop table;
* hash buckets: all tables are plain lists, newest entry first (`QUEUE_ELEM`, defs.h 126-131); an
  address always goes to the same bucket, so the order among entries that can match is the same;
* addresses of freed memory being handed out again by `malloc`: pointers are numbers that are never
  reused.
Reading a freed neighbour entry is the outcome `none`.
-/
namespace Verif.Mid

/-- `struct neighbor_entry` (neighbor_table.h 63-75): its address in memory, `neighbor_main_addr`
and `linkcount`. -/
structure Nb where
  ptr : Nat
  main : Nat
  count : Int
  deriving DecidableEq, Repr

/-- `struct link_entry` (link_set.h 62-99): `neighbor_iface_addr`, receiving interface and the
pointer `neighbor`. -/
structure Lk where
  remote : Nat
  iface : Nat
  nbr : Nat
  deriving DecidableEq, Repr

/-- `struct mid_entry` with its chain of `struct mid_address` (mid_set.h 53-75). -/
structure Ent where
  main : Nat
  aliases : List Nat
  deriving DecidableEq, Repr

/-- `neighbortable`, `link_entry_head`, `mid_set`, `reverse_mid_set` (alias with the main address of
its `main_entry`), and the next unused address. -/
structure State where
  nbs : List Nb
  links : List Lk
  ents : List Ent
  rev : List (Nat × Nat)
  fresh : Nat
  deriving DecidableEq, Repr

/-- What does not change: addresses of our interfaces, and `olsr_validate_address`
(net_olsr.c 438-453). -/
structure Env where
  own : List Nat
  valid : Nat → Bool

/-- `mid_lookup_main_addr` (mid_set.c 329-344); `none` is NULL. -/
def lookupMain (s : State) (a : Nat) : Option Nat :=
  (s.rev.find? (fun p => p.1 == a)).map (fun p => p.2)

/-- `mid_lookup_entry_bymain` (mid_set.c 352-366). -/
def entry (s : State) (m : Nat) : Option Ent := s.ents.find? (fun e => e.main == m)

/-- `mid_lookup_aliases` (mid_set.c 374-379). -/
def lookupAliases (s : State) (m : Nat) : List Nat :=
  match entry s m with
  | some e => e.aliases
  | none => []

/-- `olsr_lookup_neighbor_table_alias` (neighbor_table.c 301-318). -/
def nbOf (s : State) (a : Nat) : Option Nb := s.nbs.find? (fun b => b.main == a)

/-- Follow the pointer `p`; `none` if the entry was freed. -/
def deref (s : State) (p : Nat) : Option Nb := s.nbs.find? (fun b => b.ptr == p)

/-- `olsr_delete_neighbor_table` (neighbor_table.c 180-228): the first entry with that address. -/
def deleteNb (s : State) (a : Nat) : State :=
  { s with nbs := s.nbs.eraseP (fun b => b.main == a) }

/-- `olsr_insert_neighbor_table` (neighbor_table.c 236-274); also returns the pointer. -/
def insertNb (s : State) (m : Nat) : State × Nat :=
  match nbOf s m with
  | some b => (s, b.ptr)
  | none =>
    ({ s with nbs := { ptr := s.fresh, main := m, count := 0 } :: s.nbs, fresh := s.fresh + 1 },
     s.fresh)

/-- `replace_neighbor_link_set` (link_set.c 753-774). -/
def replaceLinks (s : State) (old new : Nat) : State :=
  { s with links := s.links.map (fun l => if l.nbr = old then { l with nbr := new } else l) }

/-- `olsr_delete_mid_entry` (mid_set.c 497-528): the aliases leave the reverse table one by one,
then the entry goes. -/
def deleteEnt (s : State) (e : Ent) : State :=
  { s with
    rev := e.aliases.foldl (fun r a => r.erase (a, e.main)) s.rev
    ents := s.ents.filter (fun x => x.main != e.main) }

/-- One round of the loop at the end of `insert_mid_tuple` (mid_set.c 215-249) for alias `t` of main
address `m`: a neighbour entry of the alias is merged into the one of the main address. -/
def dedupNb (m : Nat) (s : State) (t : Nat) : State :=
  match nbOf s t, nbOf s m with
  | some tn, some rn =>
    let s1 := replaceLinks s tn.ptr rn.ptr
    { s1 with nbs := s1.nbs.eraseP (fun b => b.ptr == tn.ptr) }
  | _, _ => s

/-- The alias is put in front of the aliases of `m`, with a new entry if there is none
(mid_set.c 184-205). -/
def addAlias (s : State) (m a : Nat) : State :=
  match entry s m with
  | some _ =>
    { s with
      ents := s.ents.map (fun e => if e.main = m then { e with aliases := a :: e.aliases } else e)
      rev := (a, m) :: s.rev }
  | none =>
    { s with
      ents := { main := m, aliases := [a] } :: s.ents
      rev := (a, m) :: s.rev }

/-- `insert_mid_tuple` (mid_set.c 155-251). -/
def insertTuple (s : State) (m a : Nat) : State :=
  if lookupMain s a = some m then s
  else (a :: lookupAliases s m).foldl (dedupNb m) (addAlias s m a)

/-- `insert_mid_alias` (mid_set.c 262-320). -/
def insertAlias (env : Env) (s : State) (m a : Nat) : State :=
  if env.valid a then
    match nbOf s a with
    | some old =>
      let s2 := insertNb (deleteNb s a) m
      let s3 := replaceLinks s2.1 old.ptr s2.2
      match entry s3 a with
      | some e => insertTuple (deleteEnt s3 e) m a
      | none => insertTuple s3 m a
    | none => insertTuple s m a
  else s

/-- The decision of `olsr_prune_aliases` (mid_set.c 445-458): an alias of the originator that the
message does not list goes if its own time is up, and in any case if the message lists no alias at
all (line 454 sets the pointer to the head of the list, which is then NULL). -/
def goes (listed : List Nat) (timedOut : Nat → Bool) (a : Nat) : Bool :=
  !listed.contains a && (timedOut a || listed.isEmpty)

/-- `olsr_prune_aliases` (mid_set.c 415-490). -/
def prune (s : State) (orig : Nat) (listed : List Nat) (timedOut : Nat → Bool) : State :=
  match entry s orig with
  | none => s
  | some e =>
    { s with
      ents := s.ents.map (fun x => if x.main = orig
        then { x with aliases := x.aliases.filter (fun a => !goes listed timedOut a) } else x)
      rev := (e.aliases.filter (goes listed timedOut)).foldl (fun r a => r.erase (a, orig)) s.rev }

/-- The loop of `olsr_input_mid` over the aliases (mid_set.c 600-623). -/
def midLoop (env : Env) (orig : Nat) (s : State) : List Nat → State
  | [] => s
  | a :: as =>
    if env.own.contains a then midLoop env orig s as
    else
      match lookupMain s a with
      | none => midLoop env orig (insertAlias env s orig a) as
      | some _ => midLoop env orig s as

/-- `olsr_input_mid` (mid_set.c 567-630) for a message that came over a symmetric link. -/
def inputMid (env : Env) (s : State) (orig : Nat) (listed : List Nat) (timedOut : Nat → Bool) :
    State :=
  if env.valid orig then prune (midLoop env orig s listed) orig listed timedOut else s

/-- The link with this remote address on this interface. -/
def lookupLink (s : State) (r i : Nat) : Option Lk :=
  s.links.find? (fun l => l.remote == r && l.iface == i)

/-- `olsr_lookup_neighbor_table` (neighbor_table.c 281-292): by main address. -/
def nbOfAny (s : State) (a : Nat) : Option Nb :=
  match lookupMain s a with
  | some m => nbOf s m
  | none => nbOf s a

/-- The neighbour entry for the main address of a HELLO, inserted if there is none (link_set.c
614-623). -/
def findNb (s : State) (src : Nat) : State × Nat :=
  match nbOfAny s src with
  | some b => (s, b.ptr)
  | none => insertNb s src

/-- `add_link_entry` (link_set.c 531-628) with the main address update in `lookup_link_entry`
(link_set.c 659-682, neighbor_table.c 156-168). -/
def addLink (s : State) (r i src : Nat) : Option State :=
  match lookupLink s r i with
  | some l =>
    match deref s l.nbr with
    | none => none
    | some b =>
      if b.main = src then some s
      else some { s with
        nbs := { b with main := src } :: s.nbs.eraseP (fun x => x.ptr == b.ptr) }
  | none =>
    some { (findNb s src).1 with
      nbs := (findNb s src).1.nbs.map (fun b =>
        if b.ptr = (findNb s src).2 then { b with count := b.count + 1 } else b)
      links := (findNb s src).1.links ++ [{ remote := r, iface := i, nbr := (findNb s src).2 }] }

/-- `olsr_hello_tap` (process_package.c 467-558) for a HELLO of `src` received from `r`: link set,
then the alias, then the use of `lnk->neighbor` (line 520 on). -/
def hello (env : Env) (s : State) (r i src : Nat) : Option State :=
  match addLink s r i src with
  | none => none
  | some s1 =>
    let s2 :=
      if src ≠ r ∧ env.valid r = true ∧ (lookupMain s1 r = none ∨ lookupMain s1 r = some src) then
        insertAlias env s1 src r
      else s1
    match lookupLink s2 r i with
    | none => none
    | some l =>
      match deref s2 l.nbr with
      | none => none
      | some _ => some s2

/-- `olsr_delete_link_entry` (link_set.c 368-402). -/
def deleteLink (s : State) (r i : Nat) : Option State :=
  match lookupLink s r i with
  | none => some s
  | some l =>
    match deref s l.nbr with
    | none => none
    | some b =>
      let s1 := if b.count = 1 then deleteNb s b.main
        else { s with nbs := s.nbs.map (fun x =>
          if x.ptr = b.ptr then { x with count := x.count - 1 } else x) }
      some { s1 with links := s1.links.filter (fun x => !(x.remote == r && x.iface == i)) }

/-- The events. -/
inductive Op where
  /-- a HELLO of `src` received from address `r` over interface `i` -/
  | hello (r i src : Nat)
  /-- a MID message; `timedOut` tells which aliases have outlived their own time -/
  | mid (orig : Nat) (listed : List Nat) (timedOut : Nat → Bool)
  /-- a MID entry expires or is cleaned up (`olsr_expire_mid_entry`, `olsr_cleanup_mid`,
  mid_set.c 97-125) -/
  | dropMid (m : Nat)
  /-- a link expires or loses its interface -/
  | dropLink (r i : Nat)

/-- One event; `none` means that a freed neighbour entry is read. -/
def step (env : Env) (s : State) : Op → Option State
  | .hello r i src => hello env s r i src
  | .mid orig listed timedOut => some (inputMid env s orig listed timedOut)
  | .dropMid m =>
    match entry s m with
    | some e => some (deleteEnt s e)
    | none => some s
  | .dropLink r i => deleteLink s r i

/-- Everything empty. -/
def init : State := { nbs := [], links := [], ents := [], rev := [], fresh := 0 }

/-- A sequence of events. -/
def run (env : Env) (s : State) : List Op → Option State
  | [] => some s
  | o :: os =>
    match step env s o with
    | some s' => run env s' os
    | none => none

end Verif.Mid
