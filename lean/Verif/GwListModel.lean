/-
Model of the list of active gateways, /repo/src/gateway_list.c and
/repo/src/gateway_list.h, and of its users in /repo/src/gateway.c:
`olsr_set_inet_gateway` (1515-1590), `olsr_update_gateway_entry` (1243-1340),
`olsr_delete_gateway_tree_entry` (1410-1436), `takeDownExpensiveGateways`
(749-798).  One address family; the two have separate lists.

The linked list is a `List` of gateways, best first, since every container holds
one gateway and only gateways not yet on the list are added; the pointer
operations are those of C30.  Routes and tunnels are not modelled, except
whether a tunnel can be created.
-/
namespace Verif.GwList

/-- `INT64_MAX`. -/
def int64Max : Nat := 9223372036854775807

/-- `current_ipv4_gw`: no container, the container of a gateway on the list, or
a container that was freed. -/
inductive Cur where
  | none
  | at (g : Nat)
  | freed
deriving DecidableEq, Repr

/-- `path_cost` of the gateways, the list, its `count` and `count_max`, the
current gateway. -/
structure St where
  cost : Nat → Nat
  list : List Nat
  count : Nat
  max : Nat
  cur : Cur

/-- `olsr_gw_list_init`, /repo/src/gateway_list.c:70-77; before any gateway is
known. -/
def start (max : Nat) : St := ⟨fun _ => int64Max, [], 0, max, .none⟩

/-- The loop of `olsr_gw_list_add`, /repo/src/gateway_list.c:129-146. -/
def insert (cost : Nat → Nat) (g : Nat) : List Nat → List Nat
  | [] => [g]
  | x :: l => if cost g ≤ cost x then g :: x :: l else x :: insert cost g l

/-- `olsr_gw_list_add`, /repo/src/gateway_list.c:121-147; `count` is a
`uint8_t`, `none` is the failing assertion. -/
def add (s : St) (g : Nat) : Option St :=
  if s.max ≤ s.count then none
  else some { s with list := insert s.cost g s.list, count := (s.count + 1) % 256 }

/-- `olsr_gw_list_remove`, /repo/src/gateway_list.c:179-187, of a gateway on the
list. -/
def remove (s : St) (g : Nat) : Option St :=
  if s.count = 0 then none
  else some { s with list := s.list.erase g, count := (s.count + 255) % 256 }

/-- `olsr_gw_list_update`, /repo/src/gateway_list.c:156-170. -/
def resort (s : St) (g : Nat) : Option St := do
  let s ← remove s g
  add s g

/-- `olsr_gw_list_get_best_entry`, /repo/src/gateway_list.h:118-127. -/
def best (s : St) : Option Nat := if s.count = 0 then none else s.list.head?

/-- `olsr_gw_list_get_worst_entry`, /repo/src/gateway_list.h:135-144. -/
def worst (s : St) : Option Nat := if s.count = 0 then none else s.list.getLast?

/-- `removeGatewayFromList`, /repo/src/gateway.c:726-739: the container is
freed. -/
def drop (s : St) (g : Nat) : Option St := do
  let s' ← remove s g
  some { s' with cur := if s.cur = .at g then .freed else s.cur }

/-- `olsr_set_inet_gateway`, /repo/src/gateway.c:1536-1590, for a usable
gateway; reading a freed container is undefined (`none`). -/
def setGateway (s : St) (g : Nat) (tunnel : Bool) : Option St :=
  if s.cur = .freed then none
  else if s.cur = .at g then some s
  else if g ∈ s.list then some { s with cur := .at g }
  else do
    let s' ← if s.max ≤ s.count then
        (match worst s with
          | none => none
          | some w => drop s w)
      else some s
    if tunnel then do
      let s'' ← add s' g
      some { s'' with cur := .at g }
    else some s'

/-- `olsr_update_gateway_entry`, /repo/src/gateway.c:1261-1338: the cost is
reset before `prev_path_cost` is taken. -/
def updateCost (s : St) (g new : Nat) : Option St :=
  let s1 := { s with cost := fun x => if x = g then int64Max else s.cost x }
  let prev := s1.cost g
  let s2 := { s1 with cost := fun x => if x = g then new else s1.cost x }
  if prev ≠ new ∧ g ∈ s2.list then resort s2 g else some s2

/-- `olsr_delete_gateway_tree_entry`, /repo/src/gateway.c:1415-1437. -/
def deleteGw (s : St) (g : Nat) : Option St :=
  if g ∈ s.list then
    if s.cur = .freed then none
    else remove { s with cur := if s.cur = .at g then .none else s.cur } g
  else some s

/-- The cost boundary, /repo/src/gateway.c:760-769, in `int64_t`; `none` on
overflow. -/
def boundary (pct cost : Nat) : Option Nat :=
  if pct < 100 then
    if cost ≤ int64Max / 100 then some (cost * 100 / pct)
    else if cost / pct * 100 + 99 ≤ int64Max then some (cost / pct * 100 + 99)
    else none
  else some cost

/-- The loop at /repo/src/gateway.c:772-797 on the reversed list: the gateways
that are taken down. -/
def takeLoop (cost : Nat → Nat) (b cur : Nat) : List Nat → List Nat
  | [] => []
  | [_] => []
  | x :: y :: l => if x = cur then [] else if cost x < b then [] else x :: takeLoop cost b cur (y :: l)

/-- Removes the gateways one after the other. -/
def drops : List Nat → St → Option St
  | [], s => some s
  | g :: l, s => do
    let s' ← drop s g
    drops l s'

/-- `takeDownExpensiveGateways`, /repo/src/gateway.c:749-798. -/
def takeDown (s : St) (pct : Nat) : Option St :=
  match s.cur with
  | .none => some s
  | .freed => if pct = 0 ∨ s.count ≤ 1 then some s else none
  | .at c =>
    if pct = 0 ∨ s.count ≤ 1 then some s
    else
      match boundary pct (s.cost c) with
      | none => none
      | some b => drops (takeLoop s.cost b c s.list.reverse) s

/-- What can happen. -/
inductive Op where
  | set (g : Nat) (tunnel : Bool)
  | cost (g new : Nat)
  | del (g : Nat)
  | take (pct : Nat)
deriving DecidableEq, Repr

def step (s : St) : Op → Option St
  | .set g t => setGateway s g t
  | .cost g n => updateCost s g n
  | .del g => deleteGw s g
  | .take p => takeDown s p

def run : List Op → St → Option St
  | [], s => some s
  | o :: l, s => do
    let s' ← step s o
    run l s'

end Verif.GwList
