/-
Model of the MPR selection without link quality, `olsr_calculate_mpr`
(/repo/src/mpr.c:84-513).

Neighbour entries and two-hop entries are C structs reached through pointers.
A pointer is a natural number; the two memories are functions from pointers to
entries.  Tables are lists of pointers in the order in which the loops visit
them.

Simplifications: `status` is only ever assigned `SYM` or `NOT_SYM`
(/repo/src/neighbor_table.c:258, 322-356), so it is a Boolean.
`olsr_lookup_neighbor_table` reads tables that the selection does not write and
is a function of the environment.  `neighbor_2_nocov` is an `int` that is
decremented at most once per visited link, so it is an unbounded integer here.
Counters of type `uint8_t` and `uint16_t` wrap as in C.
The list nodes that `olsr_find_2_hop_neighbors_with_1_link` allocates are
represented by the pointers they hold.
-/
namespace Verif.Mpr

/-- `WILL_NEVER`, /repo/src/olsr_protocol.h:164. -/
def willNever : Nat := 0

/-- `WILL_ALWAYS`, /repo/src/olsr_protocol.h:168. -/
def willAlways : Nat := 7

/-- `struct neighbor_entry`, /repo/src/neighbor_table.h:62-74.  `list` holds the
two-hop pointers of `neighbor_2_list`. -/
structure Nbr where
  sym : Bool
  will : Nat
  isMpr : Bool
  wasMpr : Bool
  nocov : Int
  list : List Nat
deriving DecidableEq, Repr

/-- `struct neighbor_2_entry`, /repo/src/two_hop_neighbor_table.h:65-73.
`nblist` holds the neighbour pointers of `neighbor_2_nblist`. -/
structure Two where
  addr : Nat
  covered : Nat
  processed : Bool
  pointer : Int
  nblist : List Nat
deriving DecidableEq, Repr

/-- What the selection reads but does not write: both tables,
`olsr_lookup_neighbor_table` (/repo/src/neighbor_table.c:281-291) and
`olsr_cnf->mpr_coverage`. -/
structure Env where
  table : List Nat
  twoTable : List Nat
  lookup : Nat → Option Nat
  coverage : Nat

/-- The two memories. -/
structure St where
  nbr : Nat → Nbr
  two : Nat → Two

/-- A store through a neighbour pointer. -/
def St.putN (s : St) (p : Nat) (n : Nbr) : St :=
  { s with nbr := fun q => if q = p then n else s.nbr q }

/-- A store through a two-hop pointer. -/
def St.putT (s : St) (t : Nat) (n : Two) : St :=
  { s with two := fun q => if q = t then n else s.two q }

/-- The test made in all loops: the two-hop neighbour is a neighbour as well and
its status is `SYM` (/repo/src/mpr.c:106-108, 155-157, 326-328, 491-493). -/
def isSymNbr (e : Env) (s : St) (t : Nat) : Bool :=
  match e.lookup (s.two t).addr with
  | none => false
  | some p => (s.nbr p).sym

/-! ### olsr_clear_mprs -/

/-- `two_hop_list->neighbor_2->mpr_covered_count = 0`, /repo/src/mpr.c:251. -/
def clearCount (s : St) (t : Nat) : St :=
  s.putT t { s.two t with covered := 0 }

/-- One neighbour in `olsr_clear_mprs`, /repo/src/mpr.c:241-252. -/
def clear1 (s : St) (p : Nat) : St :=
  let n := s.nbr p
  let s1 := if n.isMpr = true then s.putN p { n with wasMpr := true, isMpr := false } else s
  n.list.foldl clearCount s1

/-- `olsr_clear_mprs`, /repo/src/mpr.c:233-256. -/
def clearMprs (e : Env) (s : St) : St := e.table.foldl clear1 s

/-! ### olsr_calculate_two_hop_neighbors -/

/-- `olsr_clear_two_hop_processed`, /repo/src/mpr.c:289-302. -/
def clearProcessed (e : Env) (s : St) : St :=
  e.twoTable.foldl (fun s t => s.putT t { s.two t with processed := false }) s

/-- The locals `count`, `n_count` and `sum`, /repo/src/mpr.c:312-314. -/
structure Cnt where
  count : Nat
  ncount : Nat
  sum : Nat
deriving DecidableEq, Repr

/-- One link in `olsr_calculate_two_hop_neighbors`, /repo/src/mpr.c:326-334. -/
def countLink (e : Env) (a : St × Cnt) (t : Nat) : St × Cnt :=
  if isSymNbr e a.1 t = true then a
  else
    let c := { a.2 with ncount := (a.2.ncount + 1) % 65536 }
    if (a.1.two t).processed = true then (a.1, c)
    else (a.1.putT t { a.1.two t with processed := true }, { c with count := (c.count + 1) % 65536 })

/-- One neighbour in `olsr_calculate_two_hop_neighbors`,
/repo/src/mpr.c:319-341. -/
def countNbr (e : Env) (a : St × Cnt) (p : Nat) : St × Cnt :=
  let n := a.1.nbr p
  if n.sym = false then (a.1.putN p { n with nocov := a.2.count }, a.2)
  else
    let b := n.list.foldl (countLink e) a
    (b.1.putN p { b.1.nbr p with nocov := b.2.ncount },
     { b.2 with sum := (b.2.sum + b.2.count) % 65536 })

/-- `olsr_calculate_two_hop_neighbors`, /repo/src/mpr.c:307-346.  The second
component holds `sum`, the returned value. -/
def calcTwoHop (e : Env) (s : St) : St × Cnt :=
  e.table.foldl (countNbr e) (clearProcessed e s, ⟨0, 0, 0⟩)

/-! ### olsr_chosen_mpr -/

/-- `the_one_hop_list->neighbor->neighbor_2_nocov--` where the neighbour is
symmetric, /repo/src/mpr.c:177-181. -/
def uncover (s : St) (p : Nat) : St :=
  if (s.nbr p).sym = true then s.putN p { s.nbr p with nocov := (s.nbr p).nocov - 1 } else s

/-- One link in `olsr_chosen_mpr`, /repo/src/mpr.c:155-184. -/
def chosenLink (e : Env) (a : St × Nat) (t : Nat) : St × Nat :=
  if isSymNbr e a.1 t = true then a
  else
    let s1 := a.1.putT t { a.1.two t with covered := ((a.1.two t).covered + 1) % 256 }
    if e.coverage ≤ (s1.two t).covered then
      ((s1.two t).nblist.foldl uncover s1, (a.2 + 1) % 65536)
    else (s1, a.2)

/-- `olsr_chosen_mpr`, /repo/src/mpr.c:137-194.  The second component is
`*two_hop_covered_count`. -/
def chosen (e : Env) (a : St × Nat) (p : Nat) : St × Nat :=
  let s1 := a.1.putN p { a.1.nbr p with isMpr := true }
  (s1.nbr p).list.foldl (chosenLink e) (s1, a.2)

/-! ### the selection -/

/-- `add_will_always_nodes`, /repo/src/mpr.c:361-388. -/
def addAlways (e : Env) (s : St) : St × Nat :=
  e.table.foldl (fun a p =>
    if (a.1.nbr p).sym = false ∨ (a.1.nbr p).will ≠ willAlways then a else chosen e a p) (s, 0)

/-- `olsr_find_2_hop_neighbors_with_1_link`, /repo/src/mpr.c:84-131.  The new
elements are put in front.  `none`: `neighbor_2_pointer` is 1 but the list is
empty, the entry that is read is the list head and its `neighbor` is `NULL`. -/
def oneLinks (e : Env) (s : St) (will : Nat) : Option (List Nat) :=
  e.twoTable.foldl (fun acc t =>
    match acc with
    | none => none
    | some l =>
      if isSymNbr e s t = true then some l
      else if (s.two t).pointer = 1 then
        match (s.two t).nblist with
        | [] => none
        | p :: _ =>
          if (s.nbr p).will = will ∧ (s.nbr p).sym = true then some (t :: l) else some l
      else some l) (some [])

/-- The neighbour behind `neighbor_2_nblist.next`; only used on entries that
`oneLinks` returned, whose list is not empty. -/
def firstNbr (s : St) (t : Nat) : Option Nat := (s.two t).nblist.head?

/-- The loop over the entries with one link, /repo/src/mpr.c:414-422. -/
def chooseOnes (e : Env) (a : St × Nat) (ts : List Nat) : St × Nat :=
  ts.foldl (fun a t =>
    match firstNbr a.1 t with
    | none => a
    | some p => if (a.1.nbr p).isMpr = true then a else chosen e a p) a

/-- One step of `olsr_find_maximum_covered`, /repo/src/mpr.c:221-225.  The
accumulator is (`mpr_candidate`, `maximum`); `maximum` is a `uint16_t`. -/
def maxStep (s : St) (will : Nat) (a : Option Nat × Int) (p : Nat) : Option Nat × Int :=
  if (s.nbr p).isMpr = false ∧ (s.nbr p).will = will ∧ a.2 < (s.nbr p).nocov then
    (some p, (s.nbr p).nocov % 65536)
  else a

/-- `olsr_find_maximum_covered`, /repo/src/mpr.c:203-228. -/
def findMax (e : Env) (s : St) (will : Nat) : Option Nat :=
  (e.table.foldl (maxStep s will) (none, 0)).1

/-- The loop around `olsr_find_maximum_covered`, /repo/src/mpr.c:429-438.  The
first argument bounds the number of rounds; each round makes one more table
entry an MPR, so the table length is enough (`C24_loop_ends`).  The result says
whether the two-hop count was reached. -/
def maxLoop (e : Env) (sum will : Nat) : Nat → St × Nat → (St × Nat) × Bool
  | 0, a => (a, false)
  | fuel + 1, a =>
    match findMax e a.1 will with
    | none => (a, false)
    | some p =>
      let b := chosen e a p
      if sum ≤ b.2 then (b, true) else maxLoop e sum will fuel b

/-- The loop over the willingness, /repo/src/mpr.c:410-439.  The first argument
is `i`. -/
def willLoop (e : Env) (sum : Nat) : Nat → St × Nat → Option (St × Nat)
  | 0, a => some a
  | i + 1, a =>
    match oneLinks e a.1 (i + 1) with
    | none => none
    | some ts =>
      let b := chooseOnes e a ts
      if sum ≤ b.2 then some b
      else
        let c := maxLoop e sum (i + 1) e.table.length b
        if c.2 = true then some c.1 else willLoop e sum i c.1

/-! ### olsr_optimize_mpr_set -/

/-- Whether every two-hop neighbour of `p` has more than enough coverage,
/repo/src/mpr.c:486-501. -/
def removable (e : Env) (s : St) (p : Nat) : Bool :=
  (s.nbr p).list.all fun t => isSymNbr e s t || decide (e.coverage < (s.two t).covered)

/-- One neighbour, /repo/src/mpr.c:480-507. -/
def optimize1 (e : Env) (will : Nat) (s : St) (p : Nat) : St :=
  if (s.nbr p).will ≠ will then s
  else if (s.nbr p).isMpr = true ∧ removable e s p = true then
    s.putN p { s.nbr p with isMpr := false }
  else s

/-- `olsr_optimize_mpr_set`, /repo/src/mpr.c:467-511. -/
def optimize (e : Env) (s : St) : St :=
  [1, 2, 3, 4, 5, 6].foldl (fun s will => e.table.foldl (optimize1 e will) s) s

/-! ### olsr_check_mpr_changes -/

/-- One neighbour in `olsr_check_mpr_changes`, /repo/src/mpr.c:271-279. -/
def check1 (a : St × Bool) (p : Nat) : St × Bool :=
  if (a.1.nbr p).wasMpr = true then
    (a.1.putN p { a.1.nbr p with wasMpr := false }, a.2 || !(a.1.nbr p).isMpr)
  else a

/-- `olsr_calculate_mpr` up to the optimisation, /repo/src/mpr.c:395-440. -/
def choose (e : Env) (s : St) : Option St :=
  let a := calcTwoHop e (clearMprs e s)
  (willLoop e a.2.sum 6 (addAlways e a.1)).map (·.1)

/-- `olsr_calculate_mpr`, /repo/src/mpr.c:395-455.  The second component is the
result of `olsr_check_mpr_changes`; `none` is a `NULL` dereference. -/
def calculate (e : Env) (s : St) : Option (St × Bool) :=
  (choose e s).map fun s1 => e.table.foldl check1 (optimize e s1, false)

/-- Whether `signal_link_changes(true)` is called, /repo/src/mpr.c:449-453. -/
def signals (r : St × Bool) (tcRedundancy : Nat) : Bool :=
  r.2 && decide (0 < tcRedundancy)

end Verif.Mpr
