/-
Model of the link-quality MPR selection `olsr_calculate_lq_mpr`
(/repo/src/lq_mpr.c:54-167).

Neighbour entries are C structs reached through pointers.  A pointer is a
natural number and the neighbour memory is a function from pointers to entries.
The neighbour table is the list of pointers in the order in which
`OLSR_FOR_ALL_NBR_ENTRIES` visits them.  A two-hop entry carries its own
address and its `neighbor_2_nblist`, a list of (neighbour pointer, path cost).

Simplifications: `status` is only ever assigned `SYM` or `NOT_SYM`
(/repo/src/neighbor_table.c:258, 322-356), so it is a Boolean.  The two lookups
`olsr_lookup_neighbor_table` and `get_best_link_to_neighbor` only read tables
that the selection does not write, so they are functions of the environment.
Costs are 32-bit unsigned values; the code only compares them, so they are
natural numbers here.
-/
namespace Verif.LqMpr

/-- `LINK_COST_BROKEN`, /repo/src/lq_plugin.h:56. -/
def linkCostBroken : Nat := 4194304

/-- `WILL_NEVER`, /repo/src/olsr_protocol.h:164. -/
def willNever : Nat := 0

/-- `WILL_ALWAYS`, /repo/src/olsr_protocol.h:168. -/
def willAlways : Nat := 7

/-- The fields of `struct neighbor_entry` used here,
/repo/src/neighbor_table.h:62-74. -/
structure Nbr where
  sym : Bool
  will : Nat
  isMpr : Bool
  wasMpr : Bool
  skip : Bool
deriving DecidableEq, Repr

/-- `struct neighbor_list_entry`, /repo/src/two_hop_neighbor_table.h:56-63:
the neighbour pointer and `path_linkcost`. -/
structure Walker where
  nbr : Nat
  cost : Nat
deriving DecidableEq, Repr

/-- `struct neighbor_2_entry`, /repo/src/two_hop_neighbor_table.h:65-73. -/
structure TwoHop where
  addr : Nat
  walkers : List Walker
deriving DecidableEq, Repr

/-- What the selection reads but does not write: the neighbour table, the
two-hop table in hash-bucket order, `olsr_lookup_neighbor_table`
(/repo/src/neighbor_table.c:281-291), the cost of `get_best_link_to_neighbor`
(/repo/src/link_set.c:219-297) and `olsr_cnf->mpr_coverage`. -/
structure Env where
  table : List Nat
  twoHops : List TwoHop
  lookup : Nat → Option Nat
  bestLink : Nat → Option Nat
  coverage : Nat

/-- The neighbour memory and the local `mpr_changes`. -/
structure St where
  mem : Nat → Nbr
  changes : Bool

/-- A store through a neighbour pointer. -/
def St.put (s : St) (p : Nat) (n : Nbr) : St :=
  { s with mem := fun q => if q = p then n else s.mem q }

/-- One round of the first loop, /repo/src/lq_mpr.c:64-86. -/
def always1 (s : St) (p : Nat) : St :=
  let n := s.mem p
  let n1 := { n with wasMpr := n.isMpr, isMpr := false }
  if n1.sym = false ∨ n1.will ≠ willAlways then s.put p n1
  else
    let n2 := { n1 with isMpr := true }
    let s2 := s.put p n2
    if n2.isMpr ≠ n2.wasMpr then { s2 with changes := true } else s2

/-- "mark all 1-hop neighbours as not selected", /repo/src/lq_mpr.c:134-135. -/
def clearSkip (s : St) (ws : List Walker) : St :=
  ws.foldl (fun s w => s.put w.nbr { s.mem w.nbr with skip := false }) s

/-- One step of the search for the best neighbour, /repo/src/lq_mpr.c:145-149.
The accumulator is (`neigh`, `best`). -/
def pickStep (s : St) (a : Option Nat × Nat) (w : Walker) : Option Nat × Nat :=
  if (s.mem w.nbr).sym = true ∧ (s.mem w.nbr).skip = false ∧ w.cost < a.2 then
    (some w.nbr, w.cost)
  else a

/-- The search for the best neighbour, /repo/src/lq_mpr.c:142-149. -/
def pick (s : St) (ws : List Walker) : Option Nat × Nat :=
  ws.foldl (pickStep s) (none, linkCostBroken)

/-- The selected neighbour is marked, /repo/src/lq_mpr.c:155-159. -/
def mark (s : St) (p : Nat) : St :=
  let n := { s.mem p with isMpr := true, skip := true }
  let s2 := s.put p n
  if n.isMpr ≠ n.wasMpr then { s2 with changes := true } else s2

/-- The loop over `k`, /repo/src/lq_mpr.c:137-167.  `limit` is `best_1hop`, the
first argument the number of rounds that remain. -/
def coverLoop : Nat → List Walker → Nat → St → St
  | 0, _, _, s => s
  | k + 1, ws, limit, s =>
    match pick s ws with
    | (some p, best) =>
      if best < limit then coverLoop k ws limit (mark s p) else s
    | (none, _) => s

/-- Selection once `best_1hop` is known. -/
def cover (e : Env) (t : TwoHop) (limit : Nat) (s : St) : St :=
  coverLoop e.coverage t.walkers limit (clearSkip s t.walkers)

/-- One two-hop neighbour, /repo/src/lq_mpr.c:91-167. -/
def oneTwoHop (e : Env) (s : St) (t : TwoHop) : St :=
  match e.lookup t.addr with
  | none => cover e t linkCostBroken s
  | some p =>
    if (s.mem p).sym = true then
      match e.bestLink p with
      | none => s
      | some best1 =>
        if t.walkers.any (fun w => decide (w.cost < best1)) then cover e t best1 s
        else s
    else cover e t linkCostBroken s

/-- `olsr_calculate_lq_mpr`, /repo/src/lq_mpr.c:54-172. -/
def calculate (e : Env) (mem : Nat → Nbr) : St :=
  e.twoHops.foldl (oneTwoHop e) (e.table.foldl always1 ⟨mem, false⟩)

/-- Whether `signal_link_changes(true)` is called, /repo/src/lq_mpr.c:170-171. -/
def signals (e : Env) (mem : Nat → Nbr) (tcRedundancy : Nat) : Bool :=
  (calculate e mem).changes && decide (0 < tcRedundancy)

end Verif.LqMpr
