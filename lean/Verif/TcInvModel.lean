/-!
# The edges of the topology set and their inverse edges

`tc_set.c`, `olsr_spf.c`, `link_set.c`.  Every edge has a pointer `edge_inv` to the edge in the opposite
direction, which the route calculation follows.  Entries and edges are objects with a number that is
never used twice, so that a pointer to a freed object stays recognisable.  The edge tree of an entry is
the set of the live edges whose `tc` is the entry; addresses are numbers, and 0 is the address of all
zeros.  An entry is freed when it is deleted (its last edge and its prefixes are deleted before).
Link qualities, timers and routes are left out.
-/
namespace Verif.TcInv

/-- `struct tc_edge_entry` (tc_set.h 62-70): `tc`, `T_dest_addr`, `edge_inv`. -/
structure Edge where
  owner : Nat
  dest : Nat
  inv : Option Nat
  deriving DecidableEq, Repr

/-- The topology set: `olsr_cnf->main_addr`, `tc_myself`, the live entries with their address, `tc_tree`,
and the live edges. -/
structure St where
  main : Nat
  me : Option Nat
  ent : Nat → Option Nat
  tree : Nat → Option Nat
  edge : Nat → Option Edge
  nEnt : Nat
  nEdge : Nat

/-- What an operation can end in. -/
inductive Res (α : Type) where
  | ok (a : α)
  /-- a freed object is used -/
  | freed
  /-- a `NULL` pointer is used -/
  | null
  /-- a node that is not in the tree is deleted from the tree -/
  | corrupt

/-- Change a function at one point. -/
def upd {α : Type} (f : Nat → α) (i : Nat) (v : α) : Nat → α := fun x => if x = i then v else f x

/-- Whether an edge number is a live edge from the entry to the address. -/
def isEdge (s : St) (i d k : Nat) : Bool :=
  match s.edge k with
  | none => false
  | some e => e.owner == i && e.dest == d

/-- `olsr_lookup_tc_edge` (tc_set.c 680-688). -/
def lookupEdge (s : St) (i d : Nat) : Option Nat := (List.range s.nEdge).find? (isEdge s i d)

/-- `olsr_add_tc_entry` (tc_set.c 137-183): nothing without main address; the insertion in the tree
fails if the address is there already, which is not checked. -/
def addEntry (s : St) (a : Nat) : St × Option Nat :=
  if s.main = 0 then (s, none)
  else
    ({ s with ent := upd s.ent s.nEnt (some a)
              tree := if s.tree a = none then upd s.tree a (some s.nEnt) else s.tree
              nEnt := s.nEnt + 1 }, some s.nEnt)

/-- A new edge in the edge tree (tc_set.c 444-462). -/
def newEdge (s : St) (i d : Nat) : St :=
  { s with edge := upd s.edge s.nEdge (some ⟨i, d, none⟩), nEdge := s.nEdge + 1 }

/-- Change `edge_inv`. -/
def setInv (s : St) (k : Nat) (v : Option Nat) : St :=
  match s.edge k with
  | none => s
  | some e => { s with edge := upd s.edge k (some { e with inv := v }) }

/-- `olsr_add_tc_edge_entry` (tc_set.c 435-500): insert the edge, look for the entry of the destination
and its edge back, and connect the two. -/
def addEdge (s : St) (i d : Nat) : Res St :=
  match s.ent i with
  | none => .freed
  | some a =>
    match (newEdge s i d).tree d with
    | none => .ok (newEdge s i d)
    | some j =>
      match s.ent j with
      | none => .freed
      | some _ =>
        match lookupEdge (newEdge s i d) j a with
        | none => .ok (newEdge s i d)
        | some f => .ok (setInv (setInv (newEdge s i d) f (some s.nEdge)) s.nEdge (some f))

/-- `olsr_delete_tc_edge_entry` (tc_set.c 507-530). -/
def delEdge (s : St) (k : Nat) : Res St :=
  match s.edge k with
  | none => .freed
  | some e =>
    match s.ent e.owner with
    | none => .freed
    | some _ =>
      match e.inv with
      | none => .ok { s with edge := upd s.edge k none }
      | some f =>
        match s.edge f with
        | none => .freed
        | some _ => .ok { s with edge := upd (setInv s f none).edge k none }

/-- Whether an edge number is a live edge of the entry. -/
def isOwn (s : St) (i k : Nat) : Bool :=
  match s.edge k with
  | none => false
  | some e => e.owner == i

/-- The loop over the edges of an entry (tc_set.c 297-299), here over all edge numbers. -/
def delEdges (i : Nat) : List Nat → St → Res St
  | [], s => .ok s
  | k :: ks, s =>
    if isOwn s i k then
      match delEdge s k with
      | .ok s' => delEdges i ks s'
      | r => r
    else delEdges i ks s

/-- The end of `olsr_delete_tc_entry` (tc_set.c 311-312). -/
def unlink (s : St) (i a : Nat) : Res St :=
  if s.tree a = some i then .ok { s with tree := upd s.tree a none, ent := upd s.ent i none }
  else .corrupt

/-- `olsr_delete_tc_entry` (tc_set.c 281-313). -/
def delEntry (s : St) (i : Nat) : Res St :=
  match s.ent i with
  | none => .freed
  | some a =>
    match delEdges i (List.range s.nEdge) s with
    | .ok s' => unlink s' i a
    | r => r

/-- Look up the entry of an address and do something with it. -/
def withEntry (s : St) (a : Nat) (f : Nat → Res St) : Res St :=
  match s.tree a with
  | none => .ok s
  | some i => f i

/-- Delete the edge to an address, if there is one. -/
def dropEdge (s : St) (i d : Nat) : Res St :=
  match lookupEdge s i d with
  | none => .ok s
  | some k => delEdge s k

/-- Add the edge to an address, if there is none. -/
def touchEdge (s : St) (i d : Nat) : Res St :=
  match lookupEdge s i d with
  | none => addEdge s i d
  | some _ => .ok s

/-- `olsr_change_myself_tc` (tc_set.c 226-249). -/
def changeMyself (s : St) : Res St :=
  match s.me with
  | none => .ok { (addEntry s s.main).1 with me := (addEntry s s.main).2 }
  | some i =>
    match s.ent i with
    | none => .freed
    | some a =>
      if a = s.main then .ok s
      else
        match delEntry s i with
        | .ok s' => .ok { (addEntry s' s'.main).1 with me := (addEntry s' s'.main).2 }
        | r => r

/-- What happens to the topology set. -/
inductive Ev where
  /-- an interface comes up: its address becomes the main address if there is none (unix/ifnet.c
  814-823; the main address does not change otherwise) -/
  | ifUp (a : Nat)
  /-- a message of this originator makes an entry (tc_set.c 333-343, 865-868).  Messages with the own
  main address as originator do not get here (parser.c 377-382) -/
  | locate (a : Nat)
  /-- a TC of this originator announces this neighbour (`olsr_tc_update_edge`, tc_set.c 625-637) -/
  | announce (a d : Nat)
  /-- an edge of this originator is revoked or outdated (tc_set.c 538-598) -/
  | revoke (a d : Nat)
  /-- the entry of this originator expires or an empty TC deletes it (tc_set.c 368-382, 943); the own
  entry has no timer -/
  | remove (a : Nat)
  /-- the beginning of the route calculation (olsr_spf.c 383-384) -/
  | spf
  /-- the route calculation adds (olsr_spf.c 437) or removes (olsr_spf.c 406-422) an own edge -/
  | spfAdd (d : Nat)
  | spfDrop (d : Nat)
  /-- a link is deleted (`olsr_delete_link_entry`, link_set.c 373-377) -/
  | linkGone (d : Nat)

/-- One event. -/
def step (s : St) : Ev → Res St
  | .ifUp a => .ok (if s.main = 0 then { s with main := a } else s)
  | .locate a =>
    if a = s.main then .ok s
    else
      match s.tree a with
      | none => .ok (addEntry s a).1
      | some _ => .ok s
  | .announce a d => if a = s.main then .ok s else withEntry s a (fun i => touchEdge s i d)
  | .revoke a d => if a = s.main then .ok s else withEntry s a (fun i => dropEdge s i d)
  | .remove a => if a = s.main then .ok s else withEntry s a (fun i => delEntry s i)
  | .spf => changeMyself s
  | .spfAdd d =>
    match s.me with
    | none => .ok s
    | some i => touchEdge s i d
  | .spfDrop d =>
    match s.me with
    | none => .ok s
    | some i => dropEdge s i d
  | .linkGone d =>
    match s.me with
    | none => .null
    | some i => dropEdge s i d

/-- The start (`olsr_init_tc`, tc_set.c 189-212) with the main address of the configuration, or 0. -/
def init (main : Nat) : St :=
  { (addEntry ⟨main, none, fun _ => none, fun _ => none, fun _ => none, 0, 0⟩ main).1 with
    me := (addEntry ⟨main, none, fun _ => none, fun _ => none, fun _ => none, 0, 0⟩ main).2 }

/-- A sequence of events. -/
def run (s : St) : List Ev → Res St
  | [] => .ok s
  | e :: es =>
    match step s e with
    | .ok s' => run s' es
    | r => r

end Verif.TcInv
