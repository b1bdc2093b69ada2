/-
Model of how an info plugin finds out which reports a request asks for:
`determine_action` (`lib/info/olsrd_info.c` 101-157, 236-314), the commands of
jsoninfo, txtinfo, netjson and poprouting, and the choice of the report table in
`send_info` (`lib/info/olsrd_info.c` 504-549).

A request is a text without terminators.  A set of reports is a number whose
bits are those of `SIW_…` (`lib/info/info_types.h` 82-124), all below 24.
-/
namespace Verif.InfoCmd

/-- Text. -/
abbrev Str := List Char

/-- `SIW_…` (info_types.h 82-121). -/
def RUNTIME_ALL : Nat := 2 ^ 11 - 1
def NEIGHBORS_FREIFUNK : Nat := 1 ||| 2
def STARTUP_ALL : Nat := 2 ^ 11 ||| 2 ^ 12 ||| 2 ^ 13
def ALL : Nat := RUNTIME_ALL ||| STARTUP_ALL
def OLSRD_CONF : Nat := 2 ^ 14
def NETJSON : Nat := 2 ^ 15 ||| 2 ^ 16 ||| 2 ^ 17 ||| 2 ^ 18 ||| 2 ^ 19
def POPROUTING : Nat := 2 ^ 20 ||| 2 ^ 21 ||| 2 ^ 22 ||| 2 ^ 23

/-- `SIW_ENTRIES_ALL` (olsrd_info.c 122-157). -/
def entriesAll : List Nat :=
  [2 ^ 0, 2 ^ 1, 2 ^ 2, 2 ^ 3, 2 ^ 4, 2 ^ 5, 2 ^ 6, 2 ^ 7, 2 ^ 8, 2 ^ 9, 2 ^ 10, RUNTIME_ALL,
   NEIGHBORS_FREIFUNK, 2 ^ 11, 2 ^ 12, 2 ^ 13, STARTUP_ALL, ALL, OLSRD_CONF,
   2 ^ 15, 2 ^ 16, 2 ^ 17, 2 ^ 18, 2 ^ 19, 2 ^ 20, 2 ^ 21, 2 ^ 22, 2 ^ 23]

/-- A plugin: `supported_commands_mask`, the texts of `is_command` for the sets
it knows, and `supportsCompositeCommands`. -/
structure Plugin where
  mask : Nat
  cmds : List (Nat × Str)
  composite : Bool

/-- `isCommand` of the plugins with fixed texts (olsrd_jsoninfo.c 127-211,
olsrd_txtinfo.c 68-138, olsrd_netjson.c 70-91). -/
def isCommand (p : Plugin) (s : Str) (siw : Nat) : Bool :=
  match p.cmds.lookup siw with
  | some c => s = c
  | none => false

/-- The loop of `determine_single_action` (olsrd_info.c 243-249). -/
def singleLoop (p : Plugin) (s : Str) : List Nat → Nat
  | [] => 0
  | siw :: r => if siw &&& p.mask ≠ 0 && isCommand p s siw then siw else singleLoop p s r

/-- `determine_single_action` (olsrd_info.c 236-250). -/
def single (p : Plugin) (s : Str) : Nat :=
  if p.mask = 0 then 0 else singleLoop p s entriesAll

/-- `skipMultipleSlashes` without a length (olsrd_info.c 101-120). -/
def skipSlashes : Str → Str
  | '/' :: '/' :: r => skipSlashes ('/' :: r)
  | s => s

/-- The loop over the segments (olsrd_info.c 274-312): `f` finds the reports of
a segment, `action` are those found so far.  The fuel is the length of the
request, each round takes at least one character. -/
def segments (f : Str → Nat) : Nat → Str → Nat → Nat
  | 0, _, action => action
  | n + 1, s, action =>
    match skipSlashes s with
    | [] => action
    | c :: r =>
      if f (c :: r.takeWhile (· ≠ '/')) = 0 then 0
      else
        match r.dropWhile (· ≠ '/') with
        | [] => action ||| f (c :: r.takeWhile (· ≠ '/'))
        | t :: q => segments f n (t :: q) (action ||| f (c :: r.takeWhile (· ≠ '/')))

/-- `determine_action` (olsrd_info.c 252-314). -/
def determine (p : Plugin) (s : Str) : Nat :=
  match s with
  | [] => 0
  | _ => if p.composite then segments (single p) s.length s 0 else single p s

/-- jsoninfo (olsrd_jsoninfo.c 123-211, olsrd_plugin.c 101). -/
def jsoninfo : Plugin :=
  { mask := ALL ||| OLSRD_CONF
    composite := true
    cmds :=
      [(OLSRD_CONF, "/olsrd.conf".toList), (ALL, "/all".toList), (RUNTIME_ALL, "/runtime".toList),
       (STARTUP_ALL, "/startup".toList), (2 ^ 0, "/neighbors".toList), (2 ^ 1, "/links".toList),
       (2 ^ 2, "/routes".toList), (2 ^ 3, "/hna".toList), (2 ^ 4, "/mid".toList), (2 ^ 5, "/topology".toList),
       (2 ^ 6, "/gateways".toList), (2 ^ 7, "/interfaces".toList), (2 ^ 8, "/2hop".toList),
       (2 ^ 9, "/sgw".toList), (2 ^ 10, "/pudposition".toList), (2 ^ 11, "/version".toList),
       (2 ^ 12, "/config".toList), (2 ^ 13, "/plugins".toList), (NEIGHBORS_FREIFUNK, "/neighbours".toList)] }

/-- txtinfo (olsrd_txtinfo.c 64-138, olsrd_plugin.c 101); the mask leaves out
bits 12 and 13. -/
def txtinfo : Plugin :=
  { mask := RUNTIME_ALL ||| 2 ^ 11 ||| OLSRD_CONF
    composite := true
    cmds :=
      [(OLSRD_CONF, "/con".toList), (ALL, "/all".toList), (RUNTIME_ALL, "/runtime".toList),
       (STARTUP_ALL, "/startup".toList), (2 ^ 0, "/nei".toList), (2 ^ 1, "/lin".toList),
       (2 ^ 2, "/rou".toList), (2 ^ 3, "/hna".toList), (2 ^ 4, "/mid".toList), (2 ^ 5, "/top".toList),
       (2 ^ 6, "/gat".toList), (2 ^ 7, "/int".toList), (2 ^ 8, "/2ho".toList), (2 ^ 9, "/sgw".toList),
       (2 ^ 11, "/ver".toList), (NEIGHBORS_FREIFUNK, "/neighbours".toList)] }

/-- netjson (olsrd_netjson.c 66-91, olsrd_plugin.c 95); the mask leaves out bits
17 and 18. -/
def netjson : Plugin :=
  { mask := 2 ^ 15 ||| 2 ^ 16 ||| 2 ^ 19
    composite := false
    cmds := [(2 ^ 15, "/NetworkRoutes".toList), (2 ^ 16, "/NetworkGraph".toList), (2 ^ 19, "/NetworkCollection".toList)] }

/-- The reports written by `send_info` for a set (olsrd_info.c 504-549): the
first kind for which there is a bit, the others are left out. -/
def written (what : Nat) : Nat :=
  if what &&& ALL ≠ 0 then what &&& ALL
  else if what &&& NETJSON ≠ 0 then what &&& NETJSON
  else if what &&& POPROUTING ≠ 0 then what &&& POPROUTING
  else what &&& OLSRD_CONF

/-- `strtok(s, "=")` and the next call `strtok(NULL, "=")` (olsrd_poprouting.c
88-89). -/
def token (s : Str) : Option (Str × Str) :=
  match s.dropWhile (· = '=') with
  | [] => none
  | c :: r => some ((c :: r).takeWhile (· ≠ '='), (c :: r).dropWhile (· ≠ '='))

/-- A comparison with a null pointer, or its result. -/
inductive Cmp where
  | crash
  | is (b : Bool)
deriving DecidableEq

/-- `isCommand` of poprouting (olsrd_poprouting.c 63-102) for a known set with
the text `prefix_`.  `nonneg` tells whether the result of `atof` is not below
zero. -/
def popIsCommand (nonneg : Str → Bool) (prefix_ s : Str) : Cmp :=
  match token s with
  | none => .crash
  | some (cmd, rest) =>
    match token rest with
    | none => .is (cmd = prefix_)
    | some (t, _) => .is (cmd = prefix_ && nonneg t)

end Verif.InfoCmd
