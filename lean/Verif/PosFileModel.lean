/-!
# Model of the position file of PUD (lib/pud/src/posFile.c)

A line is what `fgets` returns (at most 255 characters of it, posFile.c 63, 228); characters are Lean characters, those of the C locale
being the ones below 128.  `readDouble` is a parameter.  The conversions after the file is read (posFile.c 358-362), the two
other dilutions of precision (which follow the horizontal one) and the time are not modelled.
-/

namespace Verif.PosFile

/-- `[[:space:]]` in the C locale (posFile.c 66, 70): blank, and the characters 9 to 13. -/
def isSpace (c : Char) : Bool := c.toNat == 32 || (9 ≤ c.toNat && c.toNat ≤ 13)

/-- `regexCommentString` (posFile.c 65-66): only white space, or anything that starts with white space or `#`; a dot matches a newline. -/
def comment (l : List Char) : Bool :=
  l.all isSpace || (match l with | [] => false | c :: _ => isSpace c || c == '#')

/-- One way to match `regexNameValueString` (posFile.c 68-70) on a line without white space in front: the name has `k` characters. -/
def attempt (s : List Char) (k : Nat) : Option (List Char × List Char) :=
  match (s.drop k).dropWhile isSpace with
  | '=' :: r =>
    let v := (r.dropWhile isSpace).takeWhile fun c => !isSpace c
    let t := (r.dropWhile isSpace).dropWhile fun c => !isSpace c
    if v ≠ [] ∧ t.all isSpace then some (s.take k, v) else none
  | _ => none

/-- The longest name of at most `k` characters, as in `regexec` (the leftmost expression is as long as possible). -/
def longest (s : List Char) : Nat → Option (List Char × List Char)
  | 0 => none
  | k + 1 => match attempt s (k + 1) with
    | some x => some x
    | none => longest s k

/-- The name and the value of a line (posFile.c 237-246). -/
def parse (l : List Char) : Option (List Char × List Char) :=
  longest (l.dropWhile isSpace) ((l.dropWhile isSpace).takeWhile fun c => !isSpace c).length

/-- The settings that are numbers (posFile.h 103-110). -/
inductive Key | hdop | lat | lon | elv | speed | track | mtrack | magvar
deriving DecidableEq, Repr

/-- The result (posFile.c 177, 211-224): the signal and the fix, and the numbers; an absent one has its default. -/
structure Info (V : Type) where
  sig : Nat
  fix : Nat
  num : Key → Option V

/-- The defaults (posFile.h 87-96): a sensitive signal, a bad fix. -/
def Info.default {V : Type} : Info V := ⟨3, 1, fun _ => none⟩

/-- `strncasecmp` with the length of the buffer (posFile.c 248 and following) against a word in lower case. -/
def same (w : String) (n : List Char) : Bool := n.map Char.toLower == w.toList

/-- The names of the numbers (posFile.h 103-110) in the order of posFile.c 278-344. -/
def key (n : List Char) : Option Key :=
  if same "hdop" n then some .hdop
  else if same "lat" n then some .lat
  else if same "lon" n then some .lon
  else if same "elv" n then some .elv
  else if same "speed" n then some .speed
  else if same "track" n then some .track
  else if same "mtrack" n then some .mtrack
  else if same "magvar" n then some .magvar
  else none

/-- One setting (posFile.c 248-352); `none` is an error. -/
def set {V : Type} (rd : List Char → Option V) (i : Info V) (n v : List Char) : Option (Info V) :=
  if same "sig" n then
    if same "bad" v then some { i with sig := 0 }
    else if same "low" v then some { i with sig := 1 }
    else if same "mid" v then some { i with sig := 2 }
    else if same "high" v then some { i with sig := 3 }
    else none
  else if same "fix" n then
    if same "bad" v then some { i with fix := 1 }
    else if same "2d" v then some { i with fix := 2 }
    else if same "3d" v then some { i with fix := 3 }
    else none
  else match key n with
    | none => none
    | some k => match rd v with
      | none => none
      | some x => some { i with num := fun k' => if k' = k then some x else i.num k' }

/-- The loop over the lines (posFile.c 228-353). -/
def lines {V : Type} (rd : List Char → Option V) : Info V → List (List Char) → Option (Info V)
  | i, [] => some i
  | i, l :: t =>
    if comment l then lines rd i t
    else match parse l with
      | none => none
      | some (n, v) => match set rd i n v with
        | none => none
        | some i' => lines rd i' t

/-- `readPositionFile` (posFile.c 168-374): the cached time of modification (0 at the start and after an error of `open`), and the file, if
it can be opened, with its time and its lines. -/
def read {V : Type} (rd : List Char → Option V) (cache : Nat) (file : Option (Nat × List (List Char))) : Nat × Option (Info V) :=
  match file with
  | none => (0, none)
  | some (m, ls) => if cache = m then (cache, none) else (m, lines rd Info.default ls)

end Verif.PosFile
