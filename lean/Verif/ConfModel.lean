/-!
# Model of the interface settings: configuration file, command line, defaults

`src/cfgparser/oparse.y` (blocks `Interface` and `InterfaceDefaults`),
`src/interfaces.c` (`olsr_create_olsrif`), `src/main.c` (`set_default_ifcnfs`),
`src/cfgparser/olsrd_conf.c` (merge with the defaults and checks),
`src/link_set.c` (`set_loss_link_multiplier`).
-/

namespace Verif.Conf

/-- The bytes of a `struct if_config_options` (src/olsr_cfg.h:223-240) by position. -/
abbrev Mem := Nat → UInt8

/-- What the statements of a block set, apart from multipliers (src/cfgparser/oparse.y:420-438).
`weight` is the number together with the flag `fixed` (oparse.y:560-581). -/
inductive Field
  | ipv4mc | ipv6mc | ipv4src | ipv6src | mode | weight
  | helloInt | helloVal | tcInt | tcVal | midInt | midVal | hnaInt | hnaVal | autodet
  deriving DecidableEq, Repr

/-- Offset in the structure on a 64-bit machine (src/olsr_cfg.h:223-240). -/
def Field.off : Field → Nat
  | .ipv4mc => 0 | .ipv6mc => 16 | .ipv4src => 32 | .ipv6src => 48
  | .mode => 68 | .weight => 72
  | .helloInt => 80 | .helloVal => 84 | .tcInt => 88 | .tcVal => 92
  | .midInt => 96 | .midVal => 100 | .hnaInt => 104 | .hnaVal => 108
  | .autodet => 124

/-- Number of bytes that the statement writes: of an IPv4 address only `.v4`
(src/cfgparser/oparse.y:610, 650), of the IPv6 prefix the address and the length without padding. -/
def Field.len : Field → Nat
  | .ipv4mc => 4 | .ipv6mc => 16 | .ipv4src => 4 | .ipv6src => 17
  | .mode => 4 | .weight => 5
  | .helloInt => 4 | .helloVal => 4 | .tcInt => 4 | .tcVal => 4
  | .midInt => 4 | .midVal => 4 | .hnaInt => 4 | .hnaVal => 4
  | .autodet => 1

/-- `sizeof(struct if_config_options)` on a 64-bit machine (src/olsr_cfg.h:223-240). -/
def size : Nat := 128

/-- A statement of a block: a field with its bytes, or `LinkQualityMult` with address (0 for
`default`) and value in 1/65536 (src/cfgparser/oparse.y:91-139, 561-860). -/
inductive Setting
  | field (f : Field) (v : List UInt8)
  | mult (a v : Nat)
  deriving DecidableEq, Repr

/-- A block of the file (src/cfgparser/oparse.y:354-360). -/
inductive Block
  | defaults (ss : List Setting)
  | iface (names : List (List Nat)) (ss : List Setting)
  deriving DecidableEq, Repr

/-- `struct olsr_if` (src/olsr_cfg.h:242-250) with its two `if_config_options`. The list
`lq_mult` is kept apart from the bytes; both structures point to the same one
(oparse.y:124). `isNull` is `cnf == NULL`. -/
structure Entry where
  name : List Nat
  isNull : Bool
  cnf : Mem
  cnfi : Mem
  mult : List (Nat × Nat)

/-- Assignment of a field (the macro `SET_IFS_CONF`, src/cfgparser/oparse.y:75-80). -/
def write (m : Mem) (f : Field) (v : List UInt8) : Mem := fun i =>
  if f.off ≤ i ∧ i < f.off + f.len then v.getD (i - f.off) 0 else m i

/-- One statement on one interface: both structures get the value (oparse.y:77-78), a multiplier
is put in front of the list (oparse.y:123-124). -/
def setOne (s : Setting) (e : Entry) : Entry :=
  match s with
  | .field f v => { e with cnf := write e.cnf f v, cnfi := write e.cnfi f v }
  | .mult a v => { e with mult := (a, v) :: e.mult }

/-- One statement on the first `k` interfaces of the list (`ifs_in_curr_cfg`, oparse.y:76, 115);
`none` is the access through the null pointer behind the list. -/
def setFirst (s : Setting) : Nat → List Entry → Option (List Entry)
  | 0, es => some es
  | _ + 1, [] => none
  | k + 1, e :: es => (setFirst s k es).map (setOne s e :: ·)

/-- The statements of a block in order (oparse.y:417). -/
def setAll : List Setting → Nat → List Entry → Option (List Entry)
  | [], _, es => some es
  | s :: ss, k, es => (setFirst s k es).bind (setAll ss k)

/-- A new interface: `cnf` all zero, `cnfi` all 0xFF (oparse.y:1005-1030,
src/interfaces.c:300-320). -/
def fresh (n : List Nat) : Entry :=
  { name := n, isNull := false, cnf := fun _ => 0, cnfi := fun _ => 0xFF, mult := [] }

/-- Takes the first interface with the name out of the list (oparse.y:984-1003). -/
def takeOut (n : List Nat) : List Entry → Option (Entry × List Entry)
  | [] => none
  | e :: es => if e.name = n then some (e, es) else (takeOut n es).map fun r => (r.1, e :: r.2)

/-- A name in the head of a block: the known interface moves to the front, an unknown one is
made (`ifnick`, oparse.y:981-1040). -/
def nick (es : List Entry) (n : List Nat) : List Entry :=
  match takeOut n es with
  | some (e, rest) => e :: rest
  | none => fresh n :: es

/-- What the parser has built. -/
structure Parsed where
  ifs : List Entry
  dflt : Option (Mem × List (Nat × Nat))

/-- One block. `InterfaceDefaults` puts a pseudo interface with the built-in values in front and
takes it out again (`ifdblock`, `ifdbody`, oparse.y:403-415, 451-485). -/
def block (builtin : Mem) (st : Parsed) : Block → Option Parsed
  | .iface names ss =>
    (setAll ss names.length (names.foldl nick st.ifs)).map fun es => { st with ifs := es }
  | .defaults ss =>
    match setAll ss 1
      ({ name := [], isNull := false, cnf := builtin, cnfi := builtin, mult := [] } :: st.ifs) with
    | some (e :: es) => some { ifs := es, dflt := some (e.cnf, e.mult) }
    | _ => none

/-- The file (oparse.y:347-360). -/
def parse (builtin : Mem) : Parsed → List Block → Option Parsed
  | st, [] => some st
  | st, b :: bs => (block builtin st b).bind fun st' => parse builtin st' bs

/-- Command line: `-i name`, and the options for interface settings such as `-hint`
(src/cli.c:130-330). -/
inductive Cli
  | iface (n : List Nat)
  | opt (f : Field) (v : List UInt8)
  deriving DecidableEq, Repr

/-- `olsr_create_olsrif` (src/interfaces.c:283-321). -/
def create (es : List Entry) (n : List Nat) : List Entry :=
  if es.any (fun e => e.name == n) then es else fresh n :: es

/-- Effect of an argument on the list of interfaces (src/cli.c). -/
def cliIf (es : List Entry) : Cli → List Entry
  | .iface n => create es n
  | .opt _ _ => es

/-- Effect of an argument on the settings `ifcnf` (src/cli.c:143, 248-325). -/
def cliOpt (m : Mem) : Cli → Mem
  | .iface _ => m
  | .opt f v => write m f v

/-- `set_default_ifcnfs` (src/main.c:388-401). -/
def setDefaults (m : Mem) (es : List Entry) : List Entry :=
  es.map fun e => if e.isNull then { e with cnf := m, isNull := false } else e

/-- What the checks depend on. Numbers are their four bytes; `neg`, `lt` and `ratio` are the
comparisons on them (`x < 0`, `x < y`, `x / y < 128`); `hv` is the holding time that replaces a
negative one, `poll` is `pollrate`, `minTc` is `min_tc_vtime > 0`. -/
structure Env where
  builtin : Mem
  neg : List UInt8 → Bool
  lt : List UInt8 → List UInt8 → Bool
  ratio : List UInt8 → List UInt8 → Bool
  hv : List UInt8
  poll : List UInt8
  minTc : Bool

/-- The bytes of a field. -/
def read (m : Mem) (f : Field) : List UInt8 := (List.range f.len).map fun j => m (f.off + j)

/-- A negative holding time is replaced (src/cfgparser/olsrd_conf.c:482-488). -/
def fixHello (v : Env) (m : Mem) : Mem :=
  if v.neg (read m .helloVal) then write m .helloVal v.hv else m

/-- One of the interval checks (src/cfgparser/olsrd_conf.c:490, 497, 508, 515). -/
def badPair (v : Env) (m : Mem) (em vt : Field) : Bool :=
  v.lt (read m em) v.poll || v.lt (read m vt) (read m em)

/-- `olsrd_sanity_check_interface_cnf` after the replacement (olsrd_conf.c:490-531): true for -1. -/
def bad (v : Env) (m : Mem) (mult : List (Nat × Nat)) : Bool :=
  badPair v m .helloInt .helloVal || badPair v m .tcInt .tcVal ||
  (v.minTc && v.ratio (read m .tcVal) (read m .tcInt)) ||
  badPair v m .midInt .midVal || badPair v m .hnaInt .hnaVal ||
  mult.any fun p => decide (65536 < p.2)

/-- The bytewise merge (olsrd_conf.c:943-948), new `cnf`. -/
def mergeCnf (d c ci : Mem) : Mem := fun i => if i < size ∧ c i ≠ ci i then d i else c i

/-- The bytewise merge (olsrd_conf.c:943-948), new `cnfi`. -/
def mergeCnfi (c ci : Mem) : Mem := fun i =>
  if i < size then (if c i ≠ ci i then 0x00 else 0xFF) else ci i

/-- Copies of the default multipliers whose address the interface does not have, in reversed order
(olsrd_conf.c:950-966). -/
def copied (orig : List (Nat × Nat)) : List (Nat × Nat) → List (Nat × Nat) → List (Nat × Nat)
  | acc, [] => acc
  | acc, p :: ps =>
    if orig.any (fun q => q.1 == p.1) then copied orig acc ps else copied orig (p :: acc) ps

/-- One round of the loop over the interfaces (olsrd_conf.c:921-995); `none` is the return
with -1. -/
def round (v : Env) (d : Mem) (dm : List (Nat × Nat)) (e : Entry) : Option Entry :=
  if e.name = [] then none
  else
    if bad v (fixHello v (mergeCnf d e.cnf e.cnfi)) (e.mult ++ copied e.mult [] dm) then none
    else some { e with
      cnf := fixHello v (mergeCnf d e.cnf e.cnfi)
      cnfi := mergeCnfi e.cnf e.cnfi
      mult := e.mult ++ copied e.mult [] dm }

/-- The loop (olsrd_conf.c:921-998). -/
def rounds (v : Env) (d : Mem) (dm : List (Nat × Nat)) : List Entry → Option (List Entry)
  | [] => some []
  | e :: es => (round v d dm e).bind fun e' => (rounds v d dm es).map (e' :: ·)

/-- The defaults that are used: those of the file, with a negative holding time replaced and the
result of their check ignored, or the built-in ones (olsrd_conf.c:912-919). -/
def defaults (v : Env) : Option (Mem × List (Nat × Nat)) → Mem × List (Nat × Nat)
  | none => (v.builtin, [])
  | some (m, l) => (fixHello v m, l)

/-- What becomes of the start. -/
inductive Outcome
  | crash
  | rejected
  | ok (es : List Entry)

/-- The end of the start: the check (olsrd_conf.c:536-998), here only its interface part. -/
def check (v : Env) (d : Option (Mem × List (Nat × Nat))) (es : List Entry) : Outcome :=
  match rounds v (defaults v d).1 (defaults v d).2 es with
  | none => .rejected
  | some es' => .ok es'

/-- File, command line, `set_default_ifcnfs`, check (src/main.c:497-534). -/
def run (v : Env) (cfg : List Block) (cli : List Cli) : Outcome :=
  match parse v.builtin { ifs := [], dflt := none } cfg with
  | none => .crash
  | some st =>
    check v st.dflt (setDefaults (cli.foldl cliOpt v.builtin) (cli.foldl cliIf st.ifs))

/-- The loop of `set_loss_link_multiplier` for the neighbour address `a`
(src/link_set.c:341-350). -/
def lossLoop (a : Nat) : Nat → List (Nat × Nat) → Nat
  | val, [] => val
  | val, p :: ps =>
    lossLoop a (if (p.1 = 0 ∧ val = 0) ∨ p.1 = a then p.2 else val) ps

/-- `set_loss_link_multiplier` (src/link_set.c:314-360). -/
def loss (a : Nat) (l : List (Nat × Nat)) : Nat :=
  if lossLoop a 0 l = 0 then 65536 else lossLoop a 0 l

end Verif.Conf
