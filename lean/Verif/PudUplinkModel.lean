/-!
# Model of `lib/pud/src/uplinkGateway.c`

The choice of the cluster leader among the gateways.  Addresses are lists of bytes (4 or 16); `ip4cmp` (ipcalc.h 72-75)
compares the word in memory, on a little endian machine.  The entries of the gateway tree come in the order of the tree; a
pointer to an entry is its address, as the tree holds one entry for each originator (gateway.c 1254).
`path_cost` is that of the tc entry, `none` if there is none.
-/

namespace Verif.PudUplink

/-- An address in memory. -/
abbrev Addr := List Nat

/-- `struct gateway_entry` (gateway.h 98-112) with the cost of its tc entry. -/
structure Gw where
  addr : Addr
  up : Nat
  down : Nat
  ipv4 : Bool
  nat : Bool
  ipv6 : Bool
  cost : Option Nat
deriving DecidableEq, Repr

/-- The configuration and the current gateways (`olsr_get_inet_gateway`, gateway.c 1653-1659). -/
structure Env where
  v6 : Bool
  niit : Bool
  allowNat : Bool
  cur4 : Option Addr
  cur6 : Option Addr
  main : Addr
deriving DecidableEq, Repr

/-- `ROUTE_COST_BROKEN` (lq_plugin.h 57). -/
def broken : Nat := 4294967295

/-- `s_addr` of an address (of the first four bytes). -/
def word : Addr → Nat
  | [] => 0
  | [a] => a
  | [a, b] => a + 256 * b
  | [a, b, c] => a + 256 * b + 65536 * c
  | a :: b :: c :: d :: _ => a + 256 * b + 65536 * c + 16777216 * d

/-- `ip4cmp(a, b) < 0` (ipcalc.h 72-75). -/
def less4 (a b : Addr) : Bool := word a < word b

/-- `memcmp(a, b) < 0` for as many bytes (ipcalc.h 83-86). -/
def less6 : Addr → Addr → Bool
  | [], [] => false
  | [], _ :: _ => true
  | _ :: _, [] => false
  | a :: as, b :: bs => if a < b then true else if b < a then false else less6 as bs

/-- `gw_speed` (uplinkGateway.c 62-64): the sum is one of `uint32_t`. -/
def speed (g : Gw) : Nat := (g.up + g.down) % 2 ^ 32

/-- The gateways that are not looked at (uplinkGateway.c 90-95). -/
def skip (g : Gw) : Bool :=
  match g.cost with
  | none => true
  | some c => decide (c ≥ broken) || (g.up == 0 || g.down == 0)

/-- `eval4` (uplinkGateway.c 97-103). -/
def eval4 (e : Env) (g : Gw) : Bool :=
  if e.cur4 = some g.addr then true
  else g.ipv4 && (!e.v6 || e.niit) && (e.allowNat || !g.nat)

/-- `eval6` (uplinkGateway.c 105-109). -/
def eval6 (e : Env) (g : Gw) : Bool :=
  if e.cur6 = some g.addr then true else g.ipv6 && e.v6

/-- `gwHaslowerIpAddress` (uplinkGateway.c 117-124). -/
def lower (e : Env) (g b : Gw) : Bool :=
  if eval4 e g = true then less4 g.addr b.addr else less6 g.addr b.addr

/-- One round of the loop (uplinkGateway.c 86-130): the best gateway so far; `gw_best_value` is its speed. -/
def consider (e : Env) (best : Option Gw) (g : Gw) : Option Gw :=
  if skip g = true then best
  else if (eval4 e g || eval6 e g) = true then
    match best with
    | none => some g
    | some b =>
      if speed g > speed b then some g
      else if speed g = speed b then if lower e g b = true then some g else some b
      else some b
  else best

/-- `getBestUplinkGateway` (uplinkGateway.c 80-140). -/
def best (e : Env) (gs : List Gw) : Addr :=
  match gs.foldl (consider e) none with
  | none => e.main
  | some g => g.addr

end Verif.PudUplink
