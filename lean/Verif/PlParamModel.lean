/-!
# Model of plugin parameters

From the statements of the configuration file (`src/cfgparser/oparse.y`) over the list of plugins to the
variables of a plugin (`src/plugin_loader.c`, `src/plugin_util.c`). Characters are numbers, a string ends
with its list. `strtol` and `strtoul` with base 0 are modelled as the C standard describes them in the C
locale, for `long` of 64 and `int` of 32 bits.

Not modelled: entries of a parameter table with an empty name, setters that a plugin brings along, and
loading the library itself. That memory runs out is not modelled either.
-/

namespace Verif.PlParam

/-! ### Numbers -/

/-- `isspace` in the C locale. -/
def isSpace (c : Nat) : Bool := c == 32 || (decide (9 ≤ c) && decide (c ≤ 13))

/-- Value of a character as a digit for `strtol`, 99 if it is none. -/
def digit (c : Nat) : Nat :=
  if 48 ≤ c ∧ c ≤ 57 then c - 48
  else if 97 ≤ c ∧ c ≤ 102 then c - 87
  else if 65 ≤ c ∧ c ≤ 70 then c - 55
  else 99

/-- The sign of `strtol`. -/
def sign : List Nat → Bool × List Nat
  | 45 :: r => (true, r)
  | 43 :: r => (false, r)
  | r => (false, r)

/-- The base that `strtol` finds when it is called with base 0, and the rest after the prefix. -/
def prefixOf : List Nat → Nat × List Nat
  | 48 :: x :: c :: r =>
    if (x = 120 ∨ x = 88) ∧ digit c < 16 then (16, c :: r) else (8, 48 :: x :: c :: r)
  | 48 :: r => (8, 48 :: r)
  | r => (10, r)

/-- The digits; the result is the number and what follows the digits. -/
def digits (base : Nat) : List Nat → Nat → Nat × List Nat
  | [], acc => (acc, [])
  | c :: cs, acc => if digit c < base then digits base cs (acc * base + digit c) else (acc, c :: cs)

/-- Sign and magnitude of a text that passes the test `*endptr != '\0' || endptr == value`
(src/plugin_util.c:57, 119, 139): there is a digit, and nothing follows the digits. -/
def number (l : List Nat) : Option (Bool × Nat) :=
  if (digits (prefixOf (sign (l.dropWhile isSpace)).2).1 (prefixOf (sign (l.dropWhile isSpace)).2).2 0).2 = [] ∧
      (prefixOf (sign (l.dropWhile isSpace)).2).2 ≠ [] then
    some ((sign (l.dropWhile isSpace)).1,
      (digits (prefixOf (sign (l.dropWhile isSpace)).2).1 (prefixOf (sign (l.dropWhile isSpace)).2).2 0).1)
  else none

/-- The result of `strtoul`. -/
def toUL (neg : Bool) (m : Nat) : Nat :=
  if m ≥ 2 ^ 64 then 2 ^ 64 - 1 else if neg then (2 ^ 64 - m) % 2 ^ 64 else m

/-- The result of `strtol`. -/
def toL (neg : Bool) (m : Nat) : Int :=
  if neg then (if m > 2 ^ 63 then -(2 ^ 63 : Int) else -(m : Int))
  else (if m ≥ 2 ^ 63 then (2 ^ 63 : Int) - 1 else (m : Int))

/-- The conversion of a `long` to an `int`. -/
def toInt (z : Int) : Int := (z + 2 ^ 31) % 2 ^ 32 - 2 ^ 31

/-! ### The setters -/

/-- A value of a variable of a plugin. -/
inductive Val
  | num (z : Int)
  | flag (b : Bool)
  | text (l : List Nat)
  deriving DecidableEq, Repr

/-- `set_plugin_port` (src/plugin_util.c:52-73) with `data`; `none` is the result 1. -/
def setPort (l : List Nat) : Option Val :=
  match number l with
  | none => none
  | some (neg, m) => if toUL neg m % 2 ^ 32 > 65535 then none else some (.num (toUL neg m % 2 ^ 32 : Nat))

/-- `set_plugin_int` (src/plugin_util.c:114-131). -/
def setInt (l : List Nat) : Option Val :=
  match number l with
  | none => none
  | some (neg, m) => some (.num (toInt (toL neg m)))

/-- `set_plugin_long` (src/plugin_util.c:134-151). -/
def setLong (l : List Nat) : Option Val :=
  match number l with
  | none => none
  | some (neg, m) => some (.num (toL neg m))

/-- `tolower` in the C locale. -/
def lower (c : Nat) : Nat := if 65 ≤ c ∧ c ≤ 90 then c + 32 else c

/-- `strcasecmp` is 0. -/
def ciEq (a b : List Nat) : Bool := a.map lower == b.map lower

/-- `set_plugin_boolean` (src/plugin_util.c:99-111). -/
def setBool (l : List Nat) : Option Val :=
  if ciEq l [121, 101, 115] || ciEq l [116, 114, 117, 101] then some (.flag true)
  else if ciEq l [110, 111] || ciEq l [102, 97, 108, 115, 101] then some (.flag false)
  else none

/-- `set_plugin_string` (src/plugin_util.c:154-169); `cap` is the size of the variable. -/
def setString (cap : Nat) (l : List Nat) : Option Val :=
  if l.length % 2 ^ 32 ≥ cap then none else some (.text l)

/-- The setter of an entry. -/
inductive Kind
  | port | int | long | bool
  | string (cap : Nat)
  deriving DecidableEq, Repr

/-- The call of the setter. -/
def setter : Kind → List Nat → Option Val
  | .port => setPort
  | .int => setInt
  | .long => setLong
  | .bool => setBool
  | .string cap => setString cap

/-! ### Handing the parameters to a plugin -/

/-- An entry of the table of a plugin (`struct olsrd_plugin_parameters`, src/olsrd_plugin.h); `var` stands
for the pointer to the variable. -/
structure Entry where
  name : List Nat
  kind : Kind
  var : Nat
  deriving DecidableEq, Repr

/-- A statement `PlParam`: key and value. -/
structure Param where
  key : List Nat
  value : List Nat
  deriving DecidableEq, Repr

/-- The variables, and whether the result is still 0. -/
structure PSt where
  vars : Nat → Val
  ok : Bool

/-- One parameter (src/plugin_loader.c:261-289). -/
def send (table : List Entry) (s : PSt) (p : Param) : PSt :=
  if table = [] then { s with ok := false }
  else
    match table.find? fun e => ciEq e.name p.key with
    | none => s
    | some e =>
      match setter e.kind p.value with
      | none => { s with ok := false }
      | some v => { s with vars := fun x => if x = e.var then v else s.vars x }

/-- The parameters of `init_olsr_plugin` (src/plugin_loader.c:255-314). -/
def sendAll (table : List Entry) (vars : Nat → Val) (ps : List Param) : PSt :=
  ps.foldl (send table) { vars := vars, ok := true }

/-! ### The configuration file -/

/-- A plugin in `olsr_cnf->plugins`. -/
structure Plugin where
  name : List Nat
  params : List Param
  deriving DecidableEq, Repr

/-- The head of a block: the plugin comes to the front of the list, with the parameters it may already
have (src/cfgparser/oparse.y:1699-1743). -/
def openBlock (n : List Nat) (l : List Plugin) : List Plugin :=
  match l.find? fun p => p.name == n with
  | some p => p :: l.eraseP fun p => p.name == n
  | none => { name := n, params := [] } :: l

/-- A statement in a block (src/cfgparser/oparse.y:1745-1772). -/
def addParam (l : List Plugin) (p : Param) : List Plugin :=
  match l with
  | [] => []
  | q :: r => { q with params := { p with key := p.key.map lower } :: q.params } :: r

/-- A block `LoadPlugin`: name and statements. -/
structure Block where
  name : List Nat
  body : List Param
  deriving DecidableEq, Repr

/-- One block of the file. -/
def block (l : List Plugin) (b : Block) : List Plugin := b.body.foldl addParam (openBlock b.name l)

/-- The blocks of the file. -/
def parse (file : List Block) : List Plugin := file.foldl block []

/-- The blocks that are written for a configuration (src/cfgparser/cfgfile_gen.c:1179-1189). -/
def generate (l : List Plugin) : List Block := l.map fun p => { name := p.name, body := p.params }

/-- `olsr_load_plugins` (src/plugin_loader.c:65-79): the names of the libraries in the order in which
they are loaded, as long as none fails. -/
def loadOrder (l : List Plugin) : List (List Nat) := l.map Plugin.name

end Verif.PlParam
