import Verif.JsonSpec
/-
Model of the reply assembly of the info plugins (`lib/info/olsrd_info.c`,
`lib/info/info_types.h`, `lib/info/http_headers.c`) for a plugin which writes
JSON, as jsoninfo does (`lib/jsoninfo/src/olsrd_jsoninfo.c` 217-240).

A report function of the plugin (`ipc_print_neighbors` and so on) is the tree
of members it writes at the moment of the call.  The bits of `SIW_…`
(info_types.h 82-121) are numbers 0 to 23.
-/
namespace Verif.Info
open Verif.Json

/-- `cache_timeout_generic` (olsrd_info.c 159-194): the configured time for the
runtime and the netjson reports (bits 0-10 and 15-19), `LONG_MAX` for the
reports which change only at startup (bits 11-13), nothing for the others. -/
def cacheTimeout (conf : Int) (bit : Nat) : Int :=
  if conf ≤ 0 then conf
  else if bit ≤ 10 ∨ (15 ≤ bit ∧ bit ≤ 19) then conf
  else if 11 ≤ bit ∧ bit ≤ 13 then 9223372036854775807
  else 0

/-- `struct info_cache_entry_t` (info_types.h 180-183); `timestamp = 0` means
that it was never used. -/
structure Entry where
  ts : Int
  buf : Str

/-- `struct info_cache_t` (info_types.h 185-208, 210-301): one entry for each of
the cached bits. -/
abbrev Cache := Nat → Entry

/-- After `info_plugin_cache_init` (olsrd_info.c 196-218). -/
def noCache : Cache := fun _ => { ts := 0, buf := [] }

/-- What one request sees: the clock, the members written by `output_start`,
the report functions of the plugin in the order of the table (olsrd_info.c
506-522) with the tree each would write now (`none` for a function the plugin
does not have), and the requested bits. -/
structure Req where
  now : Int
  header : Items Scalar
  table : List (Nat × Option (Items Scalar))
  what : Nat → Bool

/-- The loop of `send_info_from_table` (olsrd_info.c 437-473): a report is
written directly, written into its cache entry and copied, or copied from the
cache entry if that is young enough.  The test `what != 0` only ends the loop
early.  `none`: the writer stopped olsrd or went wrong. -/
def tableLoop (conf now : Int) (what : Nat → Bool) :
    List (Nat × Option (Items Scalar)) → Sess → Cache → Option (Sess × Cache × Str)
  | [], s, c => some (s, c, [])
  | (_, none) :: r, s, c => tableLoop conf now what r s c
  | (bit, some t) :: r, s, c =>
    if what bit then
      if cacheTimeout conf bit ≤ 0 then
        match execs s (calls t) with
        | .ok s1 o => (tableLoop conf now what r s1 c).map fun q => (q.1, q.2.1, o ++ q.2.2)
        | _ => none
      else if (c bit).ts = 0 ∨ cacheTimeout conf bit ≤ ((now - (c bit).ts).natAbs : Int) then
        match execs s (calls t) with
        | .ok s1 o =>
          (tableLoop conf now what r s1 (fun b => if b = bit then { ts := now, buf := o } else c b)).map
            fun q => (q.1, q.2.1, o ++ q.2.2)
        | _ => none
      else
        (tableLoop conf now what r s c).map fun q => (q.1, q.2.1, (c bit).buf ++ q.2.2)
    else tableLoop conf now what r s c

/-- `send_info_from_table` (olsrd_info.c 425-480) with `output_start` and
`output_end` of jsoninfo (olsrd_jsoninfo.c 217-240): the text of the reply, the
length of the part written by the reports (`outputLength`) and the cache
afterwards. -/
def reply (p : Bool) (conf : Int) (q : Req) (c : Cache) : Option (Str × Nat × Cache) :=
  match execs (reset p) (.output true :: calls q.header) with
  | .ok s1 o1 =>
    match tableLoop conf q.now q.what q.table s1 c with
    | some (s2, c2, o2) =>
      match exec s2 (.output false) with
      | .ok _ o3 => some (o1 ++ o2 ++ o3 ++ ['\n'], o2.length, c2)
      | _ => none
    | none => none
  | _ => none

/-- The cache after a sequence of requests. -/
def serve (p : Bool) (conf : Int) : List Req → Cache → Option Cache
  | [], c => some c
  | q :: qs, c =>
    match reply p conf q c with
    | some (_, _, c1) => serve p conf qs c1
    | none => none

end Verif.Info
