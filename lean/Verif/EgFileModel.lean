/-
Model of the egress file reader, /repo/src/egressFile.c, with the parts of
/repo/src/egressTypes.h and /repo/src/gateway.c (up and down events) that belong to it.

Simplifications: bytes are natural numbers; the two regular expressions are matched by
hand (each position of a match is determined, because the characters of the fields and
of the separators are disjoint).  `inet_pton` for IPv4 is a parameter; text that is not
an IPv4 address makes the code ignore the line, if it is an IPv6 address as well as if it
is not (671-730).  `unsigned long` has 64 bits.  Addresses that are not
set are zero (557-558), so they are `none` here.  Costs are a parameter (see C33).  Memory
and file errors other than a missing file are left out.
-/
namespace Verif.EgFile

/-! ### Lines -/

/-- `fgets` with room for `n` characters. -/
def fgets : Nat → List Nat → List Nat × List Nat
  | 0, s => ([], s)
  | _ + 1, [] => ([], [])
  | n + 1, c :: s => if c = 10 then ([c], s) else (c :: (fgets n s).1, (fgets n s).2)

/-- egressFile.c 69, 536: what the loop reads, at most 255 characters at a time. -/
def lines : Nat → List Nat → List (List Nat)
  | 0, _ => []
  | n + 1, s => if s = [] then [] else (fgets 255 s).1 :: lines n (fgets 255 s).2

/-- The string up to the first zero byte. -/
def cstr (s : List Nat) : List Nat := s.takeWhile (fun c => c != 0)

/-- `[[:space:]]`. -/
def isSpace (c : Nat) : Bool := c == 32 || (decide (9 ≤ c) && decide (c ≤ 13))

/-- `[[:digit:]]`. -/
def isDigit (c : Nat) : Bool := decide (48 ≤ c) && decide (c ≤ 57)

/-- `[[:digit:]\\.:]`, in which the backslash stands for itself. -/
def isAddr (c : Nat) : Bool := isDigit c || c == 46 || c == 58 || c == 92

/-- `[^[:space:]=]`. -/
def isName (c : Nat) : Bool := !(isSpace c) && c != 61

/-- egressFile.c 72, 552: the regular expression for comments. -/
def isComment (s : List Nat) : Bool := s.all isSpace || (match s with | c :: _ => isSpace c || c == 35 | [] => false)

/-- egressFile.c 288-294: `stripEols`. -/
def stripEols (s : List Nat) : List Nat := (s.reverse.dropWhile (fun c => c == 10 || c == 13)).reverse

def skip (s : List Nat) : List Nat := s.dropWhile isSpace

/-- A separator with white space around it. -/
def sep (c : Nat) (s : List Nat) : Option (List Nat) :=
  match skip s with
  | x :: t => if x = c then some (skip t) else none
  | [] => none

/-- The fields of a line; an optional field that is missing is empty. -/
structure Fields where
  name : List Nat
  rn : List Nat
  rg : List Nat
  up : List Nat
  down : List Nat
  path : List Nat
  net : Option (List Nat × List Nat)
  gw : List Nat
deriving DecidableEq, Repr

/-- Groups 09 to 11 and what follows them. -/
def network (s : List Nat) : Option (Option (List Nat × List Nat) × List Nat) :=
  if s.takeWhile isAddr = [] then some (none, s)
  else
    match s.dropWhile isAddr with
    | x :: r =>
      if x = 47 ∧ r.takeWhile isDigit ≠ [] then
        some (some (s.takeWhile isAddr, r.takeWhile isDigit), r.dropWhile isDigit)
      else none
    | [] => none

/-- Groups 12 and 13. -/
def tail3 (s : List Nat) : Option (List Nat) :=
  match sep 44 s with
  | none => if skip s = [] then some [] else none
  | some g => if skip (g.dropWhile isAddr) = [] then some (g.takeWhile isAddr) else none

/-- Groups 08 to 13. -/
def tail2 (s : List Nat) : Option (Option (List Nat × List Nat) × List Nat) :=
  match sep 44 s with
  | none => if skip s = [] then some (none, []) else none
  | some q => (network q).bind (fun p => (tail3 p.2).map (fun g => (p.1, g)))

/-- Groups 06 to 13. -/
def tail1 (s : List Nat) : Option (List Nat × Option (List Nat × List Nat) × List Nat) :=
  match sep 44 s with
  | none => if skip s = [] then some ([], none, []) else none
  | some p => (tail2 (p.dropWhile isDigit)).map (fun t => (p.takeWhile isDigit, t))

/-- egressFile.c 79-101, 563: the regular expression for entries. -/
def parse (s : List Nat) : Option Fields :=
  if (skip s).takeWhile isName = [] then none
  else
    (sep 61 ((skip s).dropWhile isName)).bind fun s1 =>
    (sep 44 (s1.dropWhile isDigit)).bind fun s2 =>
    (sep 44 (s2.dropWhile isDigit)).bind fun s3 =>
    (sep 44 (s3.dropWhile isDigit)).bind fun s4 =>
    (tail1 (s4.dropWhile isDigit)).map fun t =>
      ⟨(skip s).takeWhile isName, s1.takeWhile isDigit, s2.takeWhile isDigit, s3.takeWhile isDigit,
        s4.takeWhile isDigit, t.1, t.2.1, t.2.2⟩

/-! ### Entries -/

/-- The value of a string of digits. -/
def value (s : List Nat) : Nat := s.foldl (fun a c => 10 * a + (c - 48)) 0

/-- egressFile.c 259-281: `readULL` of digits; an empty field gives the default `d`
(600, 617, 633, 647, 662). -/
def number (d : Nat) (s : List Nat) : Option Nat :=
  if s = [] then some d else if value s < 18446744073709551616 then some (value s) else none

/-- What a line says. -/
structure Entry where
  name : List Nat
  rn : Bool
  rg : Bool
  uk : Nat
  dk : Nat
  path : Nat
  net : Option (Nat × Nat)
  gw : Option Nat
deriving DecidableEq, Repr

/-- egressFile.c 670-701, 733-739: the network, masked; the outer `none` means that the
line is ignored. -/
def netOf (v4 : List Nat → Option Nat) : Option (List Nat × List Nat) → Option (Option (Nat × Nat))
  | none => some none
  | some (ip, len) =>
    (v4 ip).bind fun a => (number 0 len).bind fun l =>
      if l ≤ 32 then some (some (a / 2 ^ (32 - l) * 2 ^ (32 - l), l)) else none

/-- egressFile.c 703-715: the gateway. -/
def gwOf (v4 : List Nat → Option Nat) (s : List Nat) : Option (Option Nat) :=
  if s = [] then some none else (v4 s).map some

/-- egressFile.c 569-731: a line that matches. -/
def entry (v4 : List Nat → Option Nat) (f : Fields) : Option Entry :=
  if 16 < f.name.length then none
  else
    (number 1 f.rn).bind fun rn => (number 1 f.rg).bind fun rg =>
    (number 0 f.up).bind fun uk => (number 0 f.down).bind fun dk => (number 0 f.path).bind fun path =>
    (netOf v4 f.net).bind fun net => (gwOf v4 f.gw).map fun gw =>
      ⟨f.name, decide (rn ≠ 0), decide (rg ≠ 0), min uk 320000000, min dk 320000000, min path 4294967295, net, gw⟩

/-- egressFile.c 552-731: what a line that was read says, if it is not ignored. -/
def lineEntry (v4 : List Nat → Option Nat) (raw : List Nat) : Option Entry :=
  if isComment (cstr raw) then none else (parse (stripEols (cstr raw))).bind (entry v4)

/-! ### Interfaces -/

/-- egressTypes.h 83-99. -/
structure Bw where
  rn : Bool
  rg : Bool
  uk : Nat
  dk : Nat
  path : Nat
  net : Option (Nat × Nat)
  gw : Option Nat
  cost : Nat
deriving DecidableEq, Repr

/-- egressTypes.h 101-135, the part that is used here. -/
structure Iface where
  name : List Nat
  up : Bool
  prev : Bw
  cur : Bw
  inFile : Bool
  costsCh : Bool
  netCh : Bool
  gwCh : Bool
  changed : Bool
deriving DecidableEq, Repr

/-- The parameters: `gw_costs_weigh` and `inet_pton`. -/
structure Env where
  cost : Bool → Nat → Nat → Nat → Nat
  v4 : List Nat → Option Nat

/-- egressFile.c 354-367: `egressBwClear`. -/
def clear (E : Env) (up : Bool) : Bw := ⟨true, true, 0, 0, 0, none, none, E.cost up 0 0 0⟩

/-- egressFile.c 741-758: an entry is applied to its interface. -/
def setBw (E : Env) (i : Iface) (e : Entry) : Iface :=
  { i with
    cur := if e.uk = 0 ∨ e.dk = 0 then clear E i.up
      else ⟨e.rn, e.rg, e.uk, e.dk, e.path, e.net, e.gw, E.cost i.up e.path e.uk e.dk⟩
    inFile := true }

/-- egressFile.c 302-314, 582: the first interface of the name. -/
def update (E : Env) : List Iface → Entry → List Iface
  | [], _ => []
  | i :: l, e => if i.name = e.name then setBw E i e :: l else i :: update E l e

/-- egressFile.c 537-759: one line. -/
def doLine (E : Env) (l : List Iface) (raw : List Nat) : List Iface :=
  match lineEntry E.v4 raw with
  | none => l
  | some e => update E l e

/-- egressFile.c 467-480: `readEgressFileClear`. -/
def begin (i : Iface) : Iface :=
  { i with prev := i.cur, costsCh := false, netCh := false, gwCh := false, changed := false, inFile := false }

/-- egressTypes.h 137-159. -/
def costsChanged (i : Iface) : Bool := i.prev.cost != i.cur.cost

def netChanged (i : Iface) : Bool := i.prev.rn != i.cur.rn || i.prev.net != i.cur.net

def gwChanged (i : Iface) : Bool := i.prev.rg != i.cur.rg || i.prev.gw != i.cur.gw

/-- egressFile.c 768-774: absent interfaces are cleared. -/
def absent (E : Env) (i : Iface) : Iface := if i.inFile then i else { i with cur := clear E i.up }

/-- egressFile.c 776-782: the flags. -/
def flags (i : Iface) : Iface :=
  { i with costsCh := costsChanged i, netCh := netChanged i, gwCh := gwChanged i,
           changed := costsChanged i || netChanged i || gwChanged i }

def finish (E : Env) (i : Iface) : Iface := flags (absent E i)

/-- egressFile.c 533-786: the file is read. -/
def readFile (E : Env) (content : List Nat) (l : List Iface) : List Iface :=
  ((lines content.length content).foldl (doLine E) (l.map begin)).map (finish E)

/-- The time stamp of the last reading and the interfaces. -/
structure St where
  stamp : Nat
  ifs : List Iface

/-- egressFile.c 488-795: `readEgressFile`.  The file is missing, or it has a time of
modification and a content.  The flag says whether something has changed. -/
def poll (E : Env) (s : St) : Option (Nat × List Nat) → St × Bool
  | none => (⟨0, (s.ifs.map begin).map (finish E)⟩, ((s.ifs.map begin).map (finish E)).any (fun i => i.changed))
  | some (t, content) =>
    if t = s.stamp then (s, false)
    else (⟨t, readFile E content s.ifs⟩, (readFile E content s.ifs).any (fun i => i.changed))

/-- gateway.c 582-641: an interface goes up or down. -/
def setUp (E : Env) (name : List Nat) (b : Bool) (i : Iface) : Iface :=
  if i.name = name ∧ i.up ≠ b then
    { i with up := b, cur := { i.cur with cost := E.cost b i.cur.path i.cur.uk i.cur.dk } }
  else i

/-- gateway.c 851-880, egressFile.c 431: at the start. -/
def start (E : Env) (l : List (List Nat × Bool)) : St :=
  ⟨0, l.map fun p => ⟨p.1, p.2, clear E p.2, clear E p.2, false, false, false, false, false⟩⟩

/-- What can happen. -/
inductive Ev where
  | poll (file : Option (Nat × List Nat))
  | link (name : List Nat) (up : Bool)

def step (E : Env) (s : St) : Ev → St
  | .poll f => (poll E s f).1
  | .link n b => { s with ifs := s.ifs.map (setUp E n b) }

end Verif.EgFile
