import Verif.ConfModel

/-!
# Model of the generated configuration: `src/cfgparser/cfgfile_gen.c`

The interface part of the file that txtinfo, jsoninfo and httpinfo deliver as the running
configuration. The text is not modelled: a line is the statement that the parser reads from it
(`Verif.ConfModel`), lines that are commented out are no statements. Numbers go through
`%3.1f`/`%0.2f` and `sscanf`, which is a parameter.
-/

namespace Verif.Conf

/-- What printing and reading back makes of numbers: intervals with one digit
(src/cfgparser/cfgfile_gen.c:227-250), multipliers with two (cfgfile_gen.c:283-285). -/
structure Print where
  secs : List UInt8 → List UInt8
  mult : Nat → Nat

/-- The line of the field is commented out, `"# "` (cfgfile_gen.c:158-269). There is no line for
`AutoDetectChanges`. -/
def plain (v : Env) (f : Field) (x : List UInt8) : Bool :=
  match f with
  | .ipv4mc => x == [0, 0, 0, 0]
  | .ipv4src => x == [0, 0, 0, 0]
  | .ipv6src => x.getD 16 0 == 0
  | .weight => x.getD 4 0 == 0
  | .autodet => true
  | f => x == read v.builtin f

/-- The value as read from the line (cfgfile_gen.c:158-269). -/
def shown (p : Print) (f : Field) (x : List UInt8) : List UInt8 :=
  match f with
  | .helloInt => p.secs x
  | .helloVal => p.secs x
  | .tcInt => p.secs x
  | .tcVal => p.secs x
  | .midInt => p.secs x
  | .midVal => p.secs x
  | .hnaInt => p.secs x
  | .hnaVal => p.secs x
  | _ => x

/-- The fields with a line, in order (cfgfile_gen.c:158-269). -/
def lineFields : List Field :=
  [.mode, .ipv4mc, .ipv6mc, .ipv4src, .ipv6src, .helloInt, .helloVal, .tcInt, .tcVal, .midInt,
   .midVal, .hnaInt, .hnaVal, .weight]

/-- `olsrd_write_if_autobuf` (cfgfile_gen.c:147-289). The lines for multipliers also go through
`if_appendf` (cfgfile_gen.c:97-117), which without comments drops a line whose first argument is
not empty; here that is the address. -/
def writeIf (v : Env) (p : Print) (comments : Bool) (m : Mem) (l : List (Nat × Nat)) :
    List Setting :=
  lineFields.filterMap (fun f =>
    if plain v f (read m f) then none else some (.field f (shown p f (read m f)))) ++
  (if comments then l.map fun q => .mult q.1 (p.mult q.2) else [])

/-- The loop over the interfaces (cfgfile_gen.c:1211-1218). -/
def writeIfs (v : Env) (p : Print) : Bool → List Entry → List Block
  | _, [] => []
  | c, e :: es => .iface [e.name] (writeIf v p c e.cnf e.mult) :: writeIfs v p false es

/-- The interface part of `olsrd_write_cnf_autobuf_uncached` (cfgfile_gen.c:1190-1218). -/
def writeCnf (v : Env) (p : Print) (d : Mem × List (Nat × Nat)) (es : List Entry) : List Block :=
  .defaults (writeIf v p false d.1 d.2) :: writeIfs v p true es

/-- The running configuration: the defaults and the interfaces after the check
(src/main.c:497-534). -/
def started (v : Env) (cfg : List Block) (cli : List Cli) :
    Option ((Mem × List (Nat × Nat)) × List Entry) :=
  match parse v.builtin { ifs := [], dflt := none } cfg with
  | none => none
  | some st =>
    match check v st.dflt (setDefaults (cli.foldl cliOpt v.builtin) (cli.foldl cliIf st.ifs)) with
    | .ok es => some (defaults v st.dflt, es)
    | _ => none

end Verif.Conf
