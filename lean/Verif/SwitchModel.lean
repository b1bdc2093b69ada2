/-!
# Model of the links of the host switch (src/olsr_switch/link_rules.c, ohs_cmd.c, main.c)

A client is its address: the switch keeps them different (main.c 189-197).  The command is taken as its parts; the text of it and
the counters are not modelled.  The random number of each decision, between 1 and 100, is an input.
-/

namespace Verif.Switch

/-- `ohs_conns` with the addresses of the clients, and their links: destination and quality. -/
structure Sw where
  nodes : List Nat
  links : Nat → List (Nat × Nat)

/-- `get_link` (link_rules.c 148-158): the quality of the first entry. -/
def getLink : List (Nat × Nat) → Nat → Option Nat
  | [], _ => none
  | (a, q) :: l, d => if a = d then some q else getLink l d

/-- `remove_link` (link_rules.c 124-146) of the entry that `getLink` finds. -/
def removeLink : List (Nat × Nat) → Nat → List (Nat × Nat)
  | [], _ => []
  | (a, q) :: l, d => if a = d then l else (a, q) :: removeLink l d

/-- The quality of the entry that `getLink` finds is changed. -/
def changeLink : List (Nat × Nat) → Nat → Nat → List (Nat × Nat)
  | [], _, _ => []
  | (a, q) :: l, d, v => if a = d then (a, v) :: l else (a, q) :: changeLink l d v

/-- One direction of a link (ohs_cmd.c 311-336), with `add_link` (link_rules.c 106-122). -/
def setOne (l : List (Nat × Nat)) (d q : Nat) : List (Nat × Nat) :=
  match getLink l d with
  | some _ => if q = 100 then removeLink l d else changeLink l d q
  | none => if q = 100 then l else (d, q) :: l

/-- The links of a client are replaced. -/
def put (s : Sw) (a : Nat) (l : List (Nat × Nat)) : Sw := { s with links := fun b => if b = a then l else s.links b }

/-- The body of the loops (ohs_cmd.c 310-339). -/
def pair (bi : Bool) (q : Nat) (s : Sw) (src dst : Nat) : Sw :=
  if src ≠ dst then
    if bi = true then put (put s src (setOne (s.links src) dst q)) dst (setOne (s.links dst) src q)
    else put s src (setOne (s.links src) dst q)
  else s

/-- A part of the command that names clients: `none` is the wildcard (ohs_cmd.c 249-286). -/
def choose (s : Sw) : Option Nat → Option (List Nat)
  | none => some s.nodes
  | some a => if a ∈ s.nodes then some [a] else none

/-- `ohs_cmd_link` (ohs_cmd.c 226-354). -/
def cmdLink (s : Sw) (bi : Bool) (src dst : Option Nat) (q : Nat) : Sw :=
  match choose s src, choose s dst with
  | some ss, some ds =>
    if q > 100 then s
    else ss.foldl (fun t a => ds.foldl (fun t b => pair (if src = none ∧ dst = none then false else bi) q t a b) t) s
  | _, _ => s

/-- `ohs_init_new_connection` (main.c 135-204). -/
def connect (s : Sw) (a : Nat) : Sw :=
  if a ∈ s.nodes then s else { nodes := a :: s.nodes, links := fun b => if b = a then [] else s.links b }

/-- `ohs_delete_connection` (main.c 206-238), with `ohs_delete_all_related_links` (link_rules.c 85-104). -/
def disconnect (s : Sw) (a : Nat) : Sw :=
  if a ∈ s.nodes then { nodes := s.nodes.erase a, links := fun b => if b = a then [] else s.links b } else s

/-- `ohs_check_link` (link_rules.c 55-83) with the random number `r`. -/
def check (l : List (Nat × Nat)) (d r : Nat) : Bool :=
  match getLink l d with
  | none => true
  | some q => if q = 0 then false else if q > r then false else true

/-- The clients that get a packet (`ohs_route_data`, main.c 255-279). -/
def route (s : Sw) (src : Nat) (roll : Nat → Nat) : List Nat :=
  s.nodes.filter (fun d => check (s.links src) d (roll d) && decide (src ≠ d))

/-- What may happen. -/
inductive Op where
  | connect (a : Nat)
  | disconnect (a : Nat)
  | link (bi : Bool) (src dst : Option Nat) (q : Nat)

/-- What it does. -/
def op (s : Sw) : Op → Sw
  | .connect a => connect s a
  | .disconnect a => disconnect s a
  | .link bi src dst q => cmdLink s bi src dst q

/-- A sequence of operations. -/
def run (s : Sw) : List Op → Sw
  | [] => s
  | o :: os => run (op s o) os

/-- The switch after its start. -/
def init : Sw := ⟨[], fun _ => []⟩

end Verif.Switch
