import Verif.ConfModel

/-!
# Which settings an interface should run with

Written from the point of view of the author of a configuration file; nothing here refers to
the two structures with their bytes or to the order of the lists in the program.
-/

namespace Verif.Conf

/-- The statements for interface `n`, in the order of the file. -/
def own (cfg : List Block) (n : List Nat) : List Setting :=
  cfg.flatMap fun b => match b with
    | .iface names ss => if n ∈ names then ss else []
    | .defaults _ => []

/-- The statements of an `InterfaceDefaults` block. -/
def Block.ofDefaults : Block → Option (List Setting)
  | .defaults ss => some ss
  | .iface _ _ => none

/-- The statements of the last `InterfaceDefaults` block. -/
def lastDefaults (cfg : List Block) : Option (List Setting) :=
  (cfg.filterMap Block.ofDefaults).getLast?

/-- The value that a statement gives to the field. -/
def Setting.value (f : Field) : Setting → Option (List UInt8)
  | .field g v => if g = f then some v else none
  | .mult _ _ => none

/-- The multiplier that a statement asks for. -/
def Setting.isMult : Setting → Option (Nat × Nat)
  | .field _ _ => none
  | .mult a v => some (a, v)

/-- The last value given to the field. -/
def lastOf (f : Field) (ss : List Setting) : Option (List UInt8) :=
  (ss.filterMap (Setting.value f)).getLast?

/-- The multipliers in the order of the statements. -/
def mults (ss : List Setting) : List (Nat × Nat) := ss.filterMap Setting.isMult

/-- What the interface should have: its own last value, else the last one of the defaults, else
the built-in one. -/
def wanted (v : Env) (cfg : List Block) (n : List Nat) (f : Field) : List UInt8 :=
  (lastOf f (own cfg n)).getD
    ((lastOf f ((lastDefaults cfg).getD [])).getD (read v.builtin f))

/-- The same with the rule that a negative holding time of HELLO means an automatic one. -/
def effective (v : Env) (cfg : List Block) (n : List Nat) (f : Field) : List UInt8 :=
  if f = .helloVal ∧ v.neg (wanted v cfg n f) = true then v.hv else wanted v cfg n f

/-- The names of the interfaces of the file. -/
def fileNames (cfg : List Block) : List (List Nat) :=
  cfg.flatMap fun b => match b with
    | .iface names _ => names
    | .defaults _ => []

/-- The names of the interfaces of the command line. -/
def cliNames (cli : List Cli) : List (List Nat) :=
  cli.filterMap fun c => match c with
    | .iface n => some n
    | .opt _ _ => none

/-- No block names an interface twice. -/
def NoRepeat (cfg : List Block) : Prop :=
  ∀ names ss, Block.iface names ss ∈ cfg → names.Nodup

/-- Every value has the size of its field. -/
def Sized (cfg : List Block) : Prop :=
  ∀ b ∈ cfg, ∀ ss, (b = .defaults ss ∨ ∃ names, b = .iface names ss) →
    ∀ f x, Setting.field f x ∈ ss → x.length = f.len

/-- An interval is allowed: not shorter than the poll rate and not longer than the holding
time. -/
def Allowed (v : Env) (val : Field → List UInt8) (em vt : Field) : Prop :=
  v.lt (val em) v.poll = false ∧ v.lt (val vt) (val em) = false

/-- The settings of an interface are acceptable. -/
def Acceptable (v : Env) (cfg : List Block) (n : List Nat) : Prop :=
  n ≠ [] ∧
  Allowed v (effective v cfg n) .helloInt .helloVal ∧
  Allowed v (effective v cfg n) .tcInt .tcVal ∧
  Allowed v (effective v cfg n) .midInt .midVal ∧
  Allowed v (effective v cfg n) .hnaInt .hnaVal ∧
  (v.minTc = true → v.ratio (effective v cfg n .tcVal) (effective v cfg n .tcInt) = false) ∧
  (∀ p ∈ mults (own cfg n), p.2 ≤ 65536) ∧
  (∀ p ∈ mults ((lastDefaults cfg).getD []), p.1 ∉ (mults (own cfg n)).map Prod.fst → p.2 ≤ 65536)

/-- The values given to an address, in order. -/
def valuesFor (a : Nat) (l : List (Nat × Nat)) : List Nat :=
  l.filterMap fun p => if p.1 = a then some p.2 else none

/-- The multiplier that a link to address `a` should have: the last one that the interface has
for the address, else that of the defaults for the address, else the one the interface has for
all addresses, else that of the defaults, else 1. -/
def wantedMult (mine dflt : List (Nat × Nat)) (a : Nat) : Nat :=
  ((valuesFor a mine).getLast?.or
    ((valuesFor a dflt).getLast?.or
      ((valuesFor 0 mine).getLast?.or (valuesFor 0 dflt).getLast?))).getD 65536

end Verif.Conf
