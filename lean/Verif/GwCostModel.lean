/-
Model of the cost of a gateway, /repo/src/gateway_costs.c:59-92, and of the
choice of a gateway, /repo/src/gateway_default_handler.c:92-180.
-/
namespace Verif.GwCost

/-- `INT64_MAX`. -/
def int64Max : Nat := 9223372036854775807

/-- `MAX_SMARTGW_SPEED`, /repo/src/gateway_costs.c:57. -/
def maxSpeed : Nat := 320000000

/-- The configuration: `smart_gw_divider_etx`, `smart_gw_path_max_cost_etx_max`
(32 bits) and the weights (8 bits), /repo/src/olsr_cfg.h:344-348. -/
structure Cfg where
  divider : Nat
  maxEtx : Nat
  wUp : Nat
  wDown : Nat
  wEtx : Nat

/-- `<< SCALING_SHIFT`, /repo/src/gateway_costs.c:56. -/
def scale (x : Nat) : Nat := x * 8388608

/-- The weighted path cost, computed in `uint32_t`. -/
def weighted (c : Cfg) (path : Nat) : Nat := path * c.wEtx % 4294967296

/-- `costU`, /repo/src/gateway_costs.c:87. -/
def costU (c : Cfg) (uk : Nat) : Nat := scale (1000 * c.wUp) / uk

/-- `costD`, /repo/src/gateway_costs.c:88. -/
def costD (c : Cfg) (dk : Nat) : Nat := scale (1000 * c.wDown) / dk

/-- `costE`, /repo/src/gateway_costs.c:89. -/
def costE (c : Cfg) (path : Nat) : Nat := scale (weighted c path) / c.divider

/-- `<< SCALING_SHIFT_CLASSIC`, /repo/src/gateway_costs.c:55. -/
def classic (path : Nat) : Nat := path * 2147483648

/-- `gw_costs_weigh`, /repo/src/gateway_costs.c:59-92.  Apart from the weighted
path cost everything is `int64_t`; a value outside of it is undefined behaviour
(`none`). -/
def weigh (c : Cfg) (up : Bool) (path uk dk : Nat) : Option Nat :=
  if up = false then some int64Max
  else if c.divider = 0 then
    (if classic path ≤ int64Max then some (classic path) else none)
  else if uk = 0 ∨ dk = 0 then some int64Max
  else if maxSpeed ≤ uk ∧ maxSpeed ≤ dk ∧ path < c.maxEtx then some path
  else if scale (1000 * c.wUp) ≤ int64Max ∧ scale (1000 * c.wDown) ≤ int64Max ∧
      scale (weighted c path) ≤ int64Max ∧ costU c uk + costD c dk + costE c path ≤ int64Max then
    some (costU c uk + costD c dk + costE c path)
  else none

/-! ### choice -/

/-- The part of `struct gateway_entry` the choice reads: the cost and what
`isGwSelectable` finds for the address family
(/repo/src/gateway_default_handler.h:56-71). -/
structure Gw where
  id : Nat
  cost : Nat
  selectable : Bool
deriving DecidableEq, Repr

/-- `gw_default_calc_threshold`, /repo/src/gateway_default_handler.c:92-98:
`int64_t` arithmetic, `none` on overflow.  The last division truncates; costs
are not negative. -/
def calcThreshold (thresh cost : Nat) : Option Nat :=
  if thresh = 0 then some cost
  else if cost * thresh + 50 ≤ int64Max then some ((cost * thresh + 50) / 100)
  else none

/-- The threshold at /repo/src/gateway_default_handler.c:113-127: `some none` if
it does not apply. -/
def threshold (thresh : Nat) (current : Option Gw) : Option (Option Nat) :=
  if thresh = 0 then some none
  else
    match current with
    | none => some none
    | some g =>
      match calcThreshold thresh g.cost with
      | none => none
      | some t => some (some t)

/-- Whether a gateway passes the threshold. -/
def passes (t : Option Nat) (g : Gw) : Bool :=
  match t with
  | none => true
  | some x => decide (g.cost < x)

/-- The cost to beat. -/
def bestCost : Option Gw → Nat
  | none => int64Max
  | some g => g.cost

/-- One gateway of the tree, /repo/src/gateway_default_handler.c:129-153, for
one address family. -/
def consider (t : Option Nat) (chosen : Option Gw) (g : Gw) : Option Gw :=
  if g.cost = int64Max then chosen
  else if g.selectable = true ∧ g.cost < bestCost chosen ∧ passes t g = true then some g
  else chosen

/-- `gw_default_choose_gateway` for one address family; the outer `none` is
undefined behaviour, the inner one means that the gateway is not changed. -/
def choose (thresh : Nat) (current : Option Gw) (gws : List Gw) : Option (Option Gw) :=
  match threshold thresh current with
  | none => none
  | some t => some (gws.foldl (consider t) none)

end Verif.GwCost
