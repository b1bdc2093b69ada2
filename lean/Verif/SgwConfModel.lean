/-
Model of the check of the multi-smart-gateway tables and rules,
/repo/src/cfgparser/olsrd_conf.c:682-868, and of the numbers that are then used,
/repo/src/gateway.c:845-905 and 475-560.  All arithmetic is in `uint32_t` unless
noted.
-/
namespace Verif.SgwConf

def u32 : Nat := 4294967296

/-- The configuration: the number of egress interfaces in the list, of OLSR
interfaces, `smart_gw_use_count` (8 bits), `smart_gw_offset_tables` and
`smart_gw_offset_rules` (32 bits), /repo/src/olsr_cfg.h:330-340. -/
structure Cfg where
  egress : Nat
  ifs : Nat
  use : Nat
  tables : Nat
  rules : Nat
deriving DecidableEq, Repr

/-- `smart_gw_egress_interfaces_count`, a `uint8_t` incremented for every egress
interface, /repo/src/cfgparser/olsrd_conf.c:782. -/
def count (c : Cfg) : Nat := c.egress % 256

/-- `nrOfTables`, /repo/src/cfgparser/olsrd_conf.c:798. -/
def nrOfTables (c : Cfg) : Nat := 1 + count c + c.use

/-- `nrOfBypassRules`, /repo/src/cfgparser/olsrd_conf.c:800. -/
def nrOfBypass (c : Cfg) : Nat := (count c + c.ifs) % u32

/-- `nrOfRules`, /repo/src/cfgparser/olsrd_conf.c:802. -/
def nrOfRules (c : Cfg) : Nat := (nrOfBypass c + nrOfTables c) % u32

/-- `valueInRange`, /repo/src/cfgparser/olsrd_conf.c:78. -/
def inRange (v low high : Nat) : Bool := decide (low ≤ v) && decide (v ≤ high)

/-- `rangesOverlap`, /repo/src/cfgparser/olsrd_conf.c:80-82. -/
def overlap (l1 h1 l2 h2 : Nat) : Bool :=
  inRange l1 l2 h2 || inRange h1 l2 h2 || inRange l2 l1 h1 || inRange h2 l1 h1

/-- The tables part, /repo/src/cfgparser/olsrd_conf.c:805-835. -/
def tablesOk (c : Cfg) : Bool :=
  decide (c.tables ≠ 0) && decide (c.tables ≤ (2147483648 + u32 - nrOfTables c + 1) % u32) &&
    !overlap c.tables ((c.tables + nrOfTables c) % u32) 253 255

/-- The default for the rules offset, /repo/src/cfgparser/olsrd_conf.c:838-845. -/
def rulesOffset (c : Cfg) : Option Nat :=
  if c.rules = 0 then
    if inRange c.tables 1 (nrOfBypass c) then none else some ((c.tables + u32 - nrOfBypass c) % u32)
  else some c.rules

/-- The rules part, /repo/src/cfgparser/olsrd_conf.c:847-868. -/
def rulesOk (c : Cfg) (r : Nat) : Bool :=
  decide (r ≠ 0) && decide (r ≤ (4294967295 + u32 - nrOfRules c) % u32) &&
    !overlap r ((r + nrOfRules c) % u32) 32766 32767

/-- `olsrd_sanity_check_cnf` as far as tables and rules of the multi-gateway mode
go, /repo/src/cfgparser/olsrd_conf.c:682-868.  Gives the rules offset if the
configuration is accepted. -/
def check (c : Cfg) : Option Nat :=
  if c.use < 1 ∨ 64 < c.use then none
  else if c.egress = 0 then none
  else if 32 < count c then none
  else if tablesOk c = false then none
  else
    match rulesOffset c with
    | none => none
    | some r => if rulesOk c r = true then some r else none

/-- Numbers the router uses.  `tableNr`, `ruleNr` and `bypassRuleNr` of egress
interfaces and tunnels are `uint8_t`, /repo/src/egressTypes.h:109-111 and
/repo/src/gateway.h:124-126; the others are passed on in 32 bits. -/
def egressTable (c : Cfg) (i : Nat) : Nat := (c.tables + 1 + i) % u32 % 256

/-- /repo/src/gateway.c:888. -/
def tunnelTable (c : Cfg) (i : Nat) : Nat := (c.tables + 1 + count c + i) % u32 % 256

/-- /repo/src/gateway.c:512. -/
def serverTable (c : Cfg) : Nat := c.tables

/-- /repo/src/gateway.c:864. -/
def egressBypass (_c : Cfg) (r i : Nat) : Nat := (r + i) % u32 % 256

/-- /repo/src/gateway.c:489. -/
def olsrBypass (c : Cfg) (r i : Nat) : Nat := (r + count c + i) % u32

/-- /repo/src/gateway.c:513. -/
def serverRule (c : Cfg) (r : Nat) : Nat := (r + count c + c.ifs) % u32

/-- /repo/src/gateway.c:863. -/
def egressRule (c : Cfg) (r i : Nat) : Nat := (r + count c + c.ifs + 1 + i) % u32 % 256

/-- /repo/src/gateway.c:889. -/
def tunnelRule (c : Cfg) (r i : Nat) : Nat := (r + count c + c.ifs + 1 + count c + i) % u32 % 256

/-- The routing tables used: one for the server tunnel, one per egress interface,
one per tunnel. -/
def usedTables (c : Cfg) : List Nat :=
  serverTable c :: ((List.range c.egress).map (egressTable c) ++ (List.range c.use).map (tunnelTable c))

/-- The rules used: bypass rules per egress and OLSR interface, and one per
table. -/
def usedRules (c : Cfg) (r : Nat) : List Nat :=
  (List.range c.egress).map (egressBypass c r) ++ (List.range c.ifs).map (olsrBypass c r) ++
    serverRule c r :: ((List.range c.egress).map (egressRule c r) ++ (List.range c.use).map (tunnelRule c r))

end Verif.SgwConf
