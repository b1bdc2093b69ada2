/-
Model of the route calculation up to the path list:
/repo/src/olsr_spf.c:89-308 (`olsr_spf_relax`, `olsr_spf_run_full`) and
/repo/src/olsr_spf.c:365-451 (`olsr_calculate_routing_table`, preparation).

A node of the link-state database is a natural number (its address); the node
of this router is `self`.  The field `edge_inv` of an edge is set exactly when
both directions are in the database (/repo/src/tc_set.c:468-487, 520-527), so
it is the test `hasEdge` here.  The candidate tree is the list of (key, node)
in tree order; that an AVL tree with `OLSRD_AVL_DUP` behaves like a list in
which a new element is put behind the elements with the same key is property
C29.  Deleting a node that is not in the tree is undefined (`none`).
-/
namespace Verif.Spf

/-- `LINK_COST_BROKEN`, /repo/src/lq_plugin.h:56. -/
def linkCostBroken : Nat := 4194304

/-- `ROUTE_COST_BROKEN`, /repo/src/lq_plugin.h:57. -/
def routeCostBroken : Nat := 4294967295

/-- `struct tc_edge_entry`, /repo/src/tc_set.h:62-70. -/
structure Edge where
  dest : Nat
  cost : Nat
deriving DecidableEq, Repr

/-- The link-state database: the addresses in `tc_tree` and the edge tree of
each. -/
structure Graph where
  nodes : List Nat
  edges : Nat → List Edge

/-- An edge from `u` to `v` is in the database (`olsr_lookup_tc_edge`,
/repo/src/tc_set.c:680-688). -/
def hasEdge (edges : Nat → List Edge) (u v : Nat) : Bool :=
  (edges u).any fun ed => ed.dest == v

/-- The fields of `struct tc_entry` that the calculation writes,
/repo/src/tc_set.h:74-96. -/
structure Vtx where
  cost : Nat
  hop : Option Nat
  hops : Nat
deriving DecidableEq, Repr

/-- The vertices and the candidate tree. -/
structure St where
  vtx : Nat → Vtx
  cand : List (Nat × Nat)

/-- `olsrd_avl_insert` with `OLSRD_AVL_DUP`: behind all elements whose key is
not larger (`olsr_spf_add_cand_tree`, /repo/src/olsr_spf.c:110-126). -/
def insertCand (x : Nat × Nat) : List (Nat × Nat) → List (Nat × Nat)
  | [] => [x]
  | y :: l => if y.1 ≤ x.1 then y :: insertCand x l else x :: y :: l

/-- `olsr_spf_del_cand_tree`, /repo/src/olsr_spf.c:133-147. -/
def deleteCand (n : Nat) : List (Nat × Nat) → Option (List (Nat × Nat))
  | [] => none
  | y :: l => if y.2 = n then some l else (deleteCand n l).map (y :: ·)

/-- A store through a `tc_entry` pointer. -/
def put (f : Nat → Vtx) (n : Nat) (x : Vtx) : Nat → Vtx := fun m => if m = n then x else f m

/-- `if (tc->next_hop) new_tc->next_hop = tc->next_hop`,
/repo/src/olsr_spf.c:263-265. -/
def pullHop (a b : Option Nat) : Option Nat :=
  match a with
  | some l => some l
  | none => b

/-- One edge in `olsr_spf_relax`, /repo/src/olsr_spf.c:210-277.  `new_cost` is a
32-bit sum. -/
def relaxEdge (g : Graph) (tc : Nat) (s : St) (ed : Edge) : Option St :=
  if hasEdge g.edges ed.dest tc = false then some s
  else if linkCostBroken ≤ ed.cost then some s
  else
    let newCost := ((s.vtx tc).cost + ed.cost) % 4294967296
    let n := ed.dest
    if newCost < (s.vtx n).cost then
      let del := if (s.vtx n).cost < routeCostBroken then deleteCand n s.cand else some s.cand
      del.map fun cand =>
        ⟨put s.vtx n
          { cost := newCost
            hop := pullHop (s.vtx tc).hop (s.vtx n).hop
            hops := ((s.vtx tc).hops + 1) % 256 },
         insertCand (newCost, n) cand⟩
    else some s

/-- The loop of `olsr_spf_relax`. -/
def relax (g : Graph) (tc : Nat) : List Edge → St → Option St
  | [], s => some s
  | ed :: l, s =>
    match relaxEdge g tc s ed with
    | none => none
    | some s' => relax g tc l s'

/-- `olsr_spf_run_full`, /repo/src/olsr_spf.c:291-308.  `path` is the path list.
The first argument bounds the number of rounds; that `nodes.length` is enough
is part of C25. -/
def run (g : Graph) : Nat → St → List Nat → Option (St × List Nat)
  | 0, s, path => some (s, path)
  | fuel + 1, s, path =>
    match s.cand with
    | [] => some (s, path)
    | (_, tc) :: _ =>
      match relax g tc (g.edges tc) s with
      | none => none
      | some s1 =>
        match deleteCand tc s1.cand with
        | none => none
        | some cand => run g fuel { s1 with cand := cand } (path ++ [tc])

/-- The vertices and the tree before the run, /repo/src/olsr_spf.c:373-398,
with the next hops set by the neighbour loop. -/
def initial (self : Nat) (preset : Nat → Option Nat) : St :=
  ⟨fun n => { cost := if n = self then 0 else routeCostBroken, hop := preset n, hops := 0 },
   [(0, self)]⟩

/-! ### the neighbour loop -/

/-- What the loop reads of a neighbour: the address, the status, and the best
link with its identity, whether its status is `LOST_LINK`, and the cost that
`olsr_calc_tc_cost` computes from the copied link quality. -/
structure Link where
  id : Nat
  lost : Bool
  cost : Nat
deriving DecidableEq, Repr

structure Nbr where
  addr : Nat
  sym : Bool
  link : Option Link
deriving DecidableEq, Repr

/-- `olsr_delete_tc_edge_entry`, /repo/src/tc_set.c:507-530. -/
def deleteEdge (edges : Nat → List Edge) (u v : Nat) : Nat → List Edge :=
  fun w => if w = u then (edges u).filter fun ed => !(ed.dest == v) else edges w

/-- `olsr_add_tc_edge_entry`, /repo/src/tc_set.c:434-499.  The position in the
list stands for the position in the tree, which has no influence here. -/
def addEdge (edges : Nat → List Edge) (u : Nat) (ed : Edge) : Nat → List Edge :=
  fun w => if w = u then edges u ++ [ed] else edges w

/-- `olsr_calc_tc_edge_entry_etx` on an existing edge,
/repo/src/tc_set.c:414-427. -/
def updateEdge (edges : Nat → List Edge) (u v cost : Nat) : Nat → List Edge :=
  fun w => if w = u then (edges u).map fun ed => if ed.dest = v then { ed with cost := cost } else ed
    else edges w

/-- Whether link quality is in use (`lq_level`), and the cost that
`olsr_calc_tc_cost` yields for a new edge, whose link quality is all zero
(0 without link quality because the memory is zeroed; the broken cost with
the plugins of the repository, see C35). -/
structure Cfg where
  lq : Bool
  freshCost : Nat

/-- One neighbour, /repo/src/olsr_spf.c:403-449. -/
def nbrStep (c : Cfg) (self : Nat) (a : (Nat → List Edge) × (Nat → Option Nat)) (n : Nbr) :
    (Nat → List Edge) × (Nat → Option Nat) :=
  if n.sym = false then (deleteEdge a.1 self n.addr, a.2)
  else
    match n.link with
    | none => (deleteEdge a.1 self n.addr, a.2)
    | some l =>
      if l.lost = true then (deleteEdge a.1 self n.addr, a.2)
      else
        let edges :=
          if hasEdge a.1 self n.addr = false then addEdge a.1 self ⟨n.addr, c.freshCost⟩
          else if c.lq = true then updateEdge a.1 self n.addr l.cost
          else a.1
        if hasEdge edges n.addr self = true then
          (edges, fun m => if m = n.addr then some l.id else a.2 m)
        else (edges, a.2)

/-- The neighbour loop, /repo/src/olsr_spf.c:403-450. -/
def nbrLoop (c : Cfg) (self : Nat) (edges : Nat → List Edge) (nbrs : List Nbr) :
    (Nat → List Edge) × (Nat → Option Nat) :=
  nbrs.foldl (nbrStep c self) (edges, fun _ => none)

/-- The calculation up to the path list. -/
def calculate (c : Cfg) (self : Nat) (g : Graph) (nbrs : List Nbr) : Option (St × List Nat) :=
  run ⟨g.nodes, (nbrLoop c self g.edges nbrs).1⟩ g.nodes.length
    (initial self (nbrLoop c self g.edges nbrs).2) []

end Verif.Spf
