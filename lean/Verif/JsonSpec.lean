import Verif.JsonModel
/-
A small JSON reader (RFC 8259), written without looking at the writer, and the
trees of calls a plugin makes.
-/
namespace Verif.Json

/-! ### Trees -/

/-- The inside of an object or of an array: a list of members.  A member has a
key or not, and is a scalar or an array (`array = true`) or an object with
its own inside. -/
inductive Items (α : Type) where
  | nil
  | leaf (key : Option Str) (v : α) (rest : Items α)
  | node (key : Option Str) (array : Bool) (body rest : Items α)

/-- Two lists of members one after the other. -/
def Items.append {α : Type} : Items α → Items α → Items α
  | .nil, u => u
  | .leaf k v r, u => .leaf k v (Items.append r u)
  | .node k a b r, u => .node k a b (Items.append r u)

/-- The number of members of the outermost list. -/
def Items.count {α : Type} : Items α → Nat
  | .nil => 0
  | .leaf _ _ r => Items.count r + 1
  | .node _ _ _ r => Items.count r + 1

/-- How many arrays and objects are open at the same time. -/
def Items.nest {α : Type} : Items α → Nat
  | .nil => 0
  | .leaf _ _ r => Items.nest r
  | .node _ _ b r => max (Items.nest b + 1) (Items.nest r)

/-- Every list of members in the tree is shorter than `n`. -/
def Items.smaller {α : Type} (n : Nat) : Items α → Prop
  | .nil => True
  | .leaf _ _ r => Items.smaller n r
  | .node _ _ b r => Items.count b < n ∧ Items.smaller n b ∧ Items.smaller n r

/-- Members of an object have keys, members of an array have none. -/
def Items.keyed {α : Type} (array : Bool) : Items α → Prop
  | .nil => True
  | .leaf k _ r => k.isNone = array ∧ Items.keyed array r
  | .node k a b r => k.isNone = array ∧ Items.keyed a b ∧ Items.keyed array r

/-- A property of every key and every scalar of the tree. -/
def Items.all {α : Type} (pk : Str → Prop) (pv : α → Prop) : Items α → Prop
  | .nil => True
  | .leaf k v r => (∀ s, k = some s → pk s) ∧ pv v ∧ Items.all pk pv r
  | .node k _ b r => (∀ s, k = some s → pk s) ∧ Items.all pk pv b ∧ Items.all pk pv r

/-- The same tree with every scalar replaced. -/
def Items.map {α β : Type} (f : α → β) : Items α → Items β
  | .nil => .nil
  | .leaf k v r => .leaf k (f v) (Items.map f r)
  | .node k a b r => .node k a (Items.map f b) (Items.map f r)

/-! ### A JSON reader -/

/-- What a reader sees as a scalar: a whole number has its value, any other
number keeps its text. -/
inductive Atom where
  | bool (b : Bool)
  | str (s : Str)
  | int (v : Int)
  | frac (txt : Str)
  | null
deriving DecidableEq

deriving instance DecidableEq for Items

/-- White space of JSON. -/
def isWs (c : Char) : Bool := c = ' ' || c = '\n' || c = '\t' || c = '\r'

/-- Skip white space. -/
def skipWs : Str → Str
  | [] => []
  | c :: r => if isWs c then skipWs r else c :: r

/-- A decimal digit. -/
def isDigit (c : Char) : Bool := 48 ≤ c.toNat && c.toNat ≤ 57

/-- Value of a hexadecimal digit. -/
def hexVal (c : Char) : Option Nat :=
  if isDigit c then some (c.toNat - 48)
  else if 97 ≤ c.toNat && c.toNat ≤ 102 then some (c.toNat - 87)
  else if 65 ≤ c.toNat && c.toNat ≤ 70 then some (c.toNat - 55)
  else none

/-- The character behind a one-letter escape. -/
def escVal (c : Char) : Option Char :=
  if c = '"' then some '"' else if c = '\\' then some '\\' else if c = '/' then some '/'
  else if c = 'b' then some (Char.ofNat 8) else if c = 'f' then some (Char.ofNat 12)
  else if c = 'n' then some '\n' else if c = 'r' then some '\r'
  else if c = 't' then some '\t' else none

/-- The rest of a string after the opening quote. -/
def pStr : Str → Option (Str × Str)
  | [] => none
  | c :: r =>
    if c = '"' then some ([], r)
    else if c = '\\' then
      match r with
      | [] => none
      | e :: r1 =>
        if e = 'u' then
          match r1 with
          | h1 :: h2 :: h3 :: h4 :: r2 =>
            match hexVal h1, hexVal h2, hexVal h3, hexVal h4 with
            | some a, some b, some c, some d =>
              (pStr r2).map fun p => (Char.ofNat (4096 * a + 256 * b + 16 * c + d) :: p.1, p.2)
            | _, _, _, _ => none
          | _ => none
        else
          match escVal e with
          | some ch => (pStr r1).map fun p => (ch :: p.1, p.2)
          | none => none
    else if c.toNat < 32 then none
    else (pStr r).map fun p => (c :: p.1, p.2)

/-- The longest prefix of digits. -/
def spanDigits : Str → Str × Str
  | [] => ([], [])
  | c :: r => if isDigit c then (c :: (spanDigits r).1, (spanDigits r).2) else ([], c :: r)

/-- One more decimal digit behind a number. -/
def pushDigit (acc : Nat) (c : Char) : Nat := 10 * acc + (c.toNat - 48)

/-- The number written by digits. -/
def digitsVal (s : Str) : Nat := s.foldl pushDigit 0

/-- An exponent, or nothing: the text and the rest. -/
def pExp : Str → Option (Str × Str)
  | [] => some ([], [])
  | c :: r =>
    if c = 'e' || c = 'E' then
      match r with
      | [] => none
      | g :: r1 =>
        if g = '+' || g = '-' then
          if (spanDigits r1).1 = [] then none
          else some (c :: g :: (spanDigits r1).1, (spanDigits r1).2)
        else
          if (spanDigits r).1 = [] then none
          else some (c :: (spanDigits r).1, (spanDigits r).2)
    else some ([], c :: r)

/-- A fraction, or nothing. -/
def pFrac : Str → Option (Str × Str)
  | [] => some ([], [])
  | c :: r =>
    if c = '.' then
      if (spanDigits r).1 = [] then none
      else some (c :: (spanDigits r).1, (spanDigits r).2)
    else some ([], c :: r)

/-- An optional minus sign. -/
def pMinus : Str → Bool × Str
  | [] => (false, [])
  | c :: r => if c = '-' then (true, r) else (false, c :: r)

/-- A number: no leading zeros, an optional fraction and an optional
exponent. -/
def pNum (s : Str) : Option (Atom × Str) :=
  let ip := (spanDigits (pMinus s).2).1
  let r := (spanDigits (pMinus s).2).2
  if ip = [] then none
  else if ip.head? = some '0' ∧ ip.length ≠ 1 then none
  else
    match pFrac r with
    | none => none
    | some (f, r1) =>
      match pExp r1 with
      | none => none
      | some (e, r2) =>
        if f = [] ∧ e = [] then
          some (.int (if (pMinus s).1 then -(digitsVal ip : Nat) else (digitsVal ip : Nat)), r2)
        else
          some (.frac ((if (pMinus s).1 then ['-'] else []) ++ ip ++ f ++ e), r2)

/-- The text `w` in front. -/
def stripWord : Str → Str → Option Str
  | [], s => some s
  | _ :: _, [] => none
  | c :: w, d :: s => if c = d then stripWord w s else none

/-- A scalar other than a string. -/
def pAtom (s : Str) : Option (Atom × Str) :=
  match stripWord ['t', 'r', 'u', 'e'] s with
  | some r => some (.bool true, r)
  | none =>
    match stripWord ['f', 'a', 'l', 's', 'e'] s with
    | some r => some (.bool false, r)
    | none =>
      match stripWord ['n', 'u', 'l', 'l'] s with
      | some r => some (.null, r)
      | none => pNum s

/-- The key of a member of an object, with its colon. -/
def pKey (s : Str) : Option (Str × Str) :=
  match s with
  | [] => none
  | c :: r =>
    if c = '"' then
      match pStr r with
      | none => none
      | some (k, r1) =>
        match skipWs r1 with
        | [] => none
        | d :: r2 => if d = ':' then some (k, skipWs r2) else none
    else none

/-- The key in front of a value: an object needs one, an array has none. -/
def pOptKey (array : Bool) (s : Str) : Option (Option Str × Str) :=
  if array then some (none, s) else (pKey s).map fun p => (some p.1, p.2)

/-- The closing bracket. -/
def closer (array : Bool) : Char := if array then ']' else '}'

/-- After the opening bracket or after a member: either the end (`none`) or
the place where the next member begins. -/
def pNext (array first : Bool) (s : Str) : Option (Option Str × Str) :=
  match skipWs s with
  | [] => none
  | c :: r =>
    if c = closer array then some (none, r)
    else if first then some (some (c :: r), [])
    else if c = ',' then some (some (skipWs r), [])
    else none

/-- The inside of an array or of an object up to and including its closing
bracket.  `first` says that no member has been read yet. -/
def pItems : Nat → Bool → Bool → Str → Option (Items Atom × Str)
  | 0, _, _, _ => none
  | n + 1, array, first, s =>
    match pNext array first s with
    | none => none
    | some (none, r) => some (.nil, r)
    | some (some s1, _) =>
      match pOptKey array s1 with
      | none => none
      | some (_, []) => none
      | some (k, c :: r) =>
        if c = '{' ∨ c = '[' then
          match pItems n (c = '[') true r with
          | none => none
          | some (b, r1) =>
            match pItems n array false r1 with
            | none => none
            | some (t, r2) => some (.node k (c = '[') b t, r2)
        else if c = '"' then
          match pStr r with
          | none => none
          | some (v, r1) =>
            match pItems n array false r1 with
            | none => none
            | some (t, r2) => some (.leaf k (.str v) t, r2)
        else
          match pAtom (c :: r) with
          | none => none
          | some (v, r1) =>
            match pItems n array false r1 with
            | none => none
            | some (t, r2) => some (.leaf k v t, r2)

/-- The members of a text that is one JSON object and nothing else. -/
def parseObject (s : Str) : Option (Items Atom) :=
  match skipWs s with
  | [] => none
  | c :: r =>
    if c = '{' then
      match pItems (s.length + 1) false true r with
      | none => none
      | some (t, r1) => if skipWs r1 = [] then some t else none
    else none

/-! ### The trees of calls -/

/-- The calls which write a list of members. -/
def calls : Items Scalar → List Call
  | .nil => []
  | .leaf k v r => .put k v :: calls r
  | .node k a b r => .mark true a k :: (calls b ++ .mark false a none :: calls r)

/-- The calls which write a whole document. -/
def document (t : Items Scalar) : List Call :=
  .output true :: (calls t ++ [.output false])

/-- What a reader should see for a scalar. -/
def denote : Scalar → Atom
  | .bool b => .bool b
  | .str s => .str (s.getD [])
  | .int v => .int v
  | .flt t => .frac t

/-- Text that needs no escaping. -/
def clean (s : Str) : Prop := ∀ c ∈ s, c ≠ '"' ∧ c ≠ '\\' ∧ 32 ≤ c.toNat

/-- What `%f` writes for a finite number. -/
def fixed (t : Str) : Prop :=
  ∃ (m : Bool) (ip fp : Str), t = (if m then ['-'] else []) ++ ip ++ '.' :: fp ∧ ip ≠ [] ∧
    (∀ c ∈ ip, isDigit c = true) ∧ (ip.head? = some '0' → ip.length = 1) ∧
    fp ≠ [] ∧ (∀ c ∈ fp, isDigit c = true)

/-- The arguments the writers can be given: strings without special
characters, a `long long`, and the text of a finite float. -/
def cleanScalar : Scalar → Prop
  | .bool _ => True
  | .str s => ∀ t, s = some t → clean t
  | .int v => -(2 : Int) ^ 63 ≤ v ∧ v < (2 : Int) ^ 63
  | .flt t => fixed t

end Verif.Json
