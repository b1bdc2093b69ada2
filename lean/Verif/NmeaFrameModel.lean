/-!
# Model of the sentence parser of nmealib (lib/pud/nmealib/src/parser.c)

Characters are bytes (`Nat` below 256).  The buffer has the size that was allocated, its contents are arbitrary at first; a write
outside of it is `none`.  The parsing of the fields of a recognised sentence (`nmeaSentenceToInfo`) is not modelled: the
result is the list of the texts that are handed to it.  No pointer is NULL and `malloc` succeeds.
-/

namespace Verif.NmeaFrame

/-- `NmeaParserSentenceState` (parser.h 35-40). -/
inductive St where
  | skip
  | sentence
  | checksum
  | eol
deriving DecidableEq, Repr

/-- `NmeaParser` (parser.h 45-67); `bufferSize` is the length of `buf`.  `checksumPresent` is written but never read. -/
structure P where
  st : St
  ck0 : Nat
  ck1 : Nat
  ckCount : Nat
  ckRead : Nat
  ckCalc : Nat
  eolCount : Nat
  len : Nat
  buf : List Nat
deriving DecidableEq, Repr

/-- A write into the buffer. -/
def write (b : List Nat) (i v : Nat) : Option (List Nat) := if i < b.length then some (b.set i v) else none

/-- `nmeaParserReset` (parser.c 58-71).  The index `bufferSize - 1` of an empty buffer is outside. -/
def reset (p : P) (st : St) : Option P :=
  match write p.buf 0 0 with
  | none => none
  | some b =>
    match write b (p.buf.length - 1) 0 with
    | none => none
    | some b' => some ⟨st, 0, 0, 0, 0, 0, 0, 0, b'⟩

/-- The size of the buffer (parser.c 78; util.h 42). -/
def bufferSize (sz : Nat) : Nat := if sz = 0 then 4096 else sz

/-- `nmeaParserInit` (parser.c 73-87); `mem` are the contents of the memory. -/
def init (sz : Nat) (mem : Nat → Nat) : Option P :=
  reset ⟨.skip, 0, 0, 0, 0, 0, 0, 0, (List.range (bufferSize sz)).map mem⟩ .skip

/-- `tolower` in the C locale. -/
def tolower (c : Nat) : Nat := if 65 ≤ c ∧ c ≤ 90 then c + 32 else c

/-- `nmeaParserIsHexCharacter` (parser.c 33-56). -/
def isHex (c : Nat) : Bool :=
  [48, 49, 50, 51, 52, 53, 54, 55, 56, 57, 97, 98, 99, 100, 101, 102].contains (tolower c)

/-- The value of a digit for `strtol` with base 16. -/
def digit (c : Nat) : Nat := if c < 58 then c - 48 else if c < 71 then c - 55 else c - 87

/-- `nmeaStringToInteger` for two digits and base 16 (util.c 126-176). -/
def twoDigits (a b : Nat) : Nat := 16 * digit a + digit b

/-- `nmealibInvalidCharacters` (validate.c 29-58). -/
def invalidTable : List Nat := [36, 42, 33, 92, 94, 126]

/-- `nmeaValidateIsInvalidCharacter` (validate.c 60-77).  A `char` of 128 and more is below 32 or above 126, whether it has a sign or not. -/
def invalid (c : Nat) : Bool := if c < 32 ∨ c > 126 then true else invalidTable.contains c

/-- A reset that ends the sentence (parser.c 143-144 and others). -/
def fail (p : P) : Option (P × Bool) := (reset p .skip).map (fun q => (q, false))

/-- `NMEALIB_SENTENCE_STATE_READ_SENTENCE` (parser.c 136-149). -/
def inSentence (p : P) (c : Nat) : Option (P × Bool) :=
  if c = 42 then some ({ p with st := .checksum, ckCount := 0 }, false)
  else if c = 13 then some ({ p with st := .eol, eolCount := 1 }, false)
  else if invalid c = true then fail p
  else some ({ p with ckCalc := p.ckCalc ^^^ c }, false)

/-- `NMEALIB_SENTENCE_STATE_READ_CHECKSUM` (parser.c 151-172). -/
def inChecksum (p : P) (c : Nat) : Option (P × Bool) :=
  if isHex c = false then fail p
  else if p.ckCount = 0 then some ({ p with ck0 := c, ck1 := 0, ckCount := 1 }, false)
  else some ({ p with ck1 := c, ckCount := 2, ckRead := twoDigits p.ck0 c, st := .eol }, false)

/-- `NMEALIB_SENTENCE_STATE_READ_EOL` (parser.c 174-203). -/
def inEol (p : P) (c : Nat) : Option (P × Bool) :=
  if p.eolCount = 0 then
    if c ≠ 13 then fail p else some ({ p with eolCount := 1 }, false)
  else if c ≠ 10 then fail p
  else
    match write p.buf (p.len - 2) 0 with
    | none => none
    | some b =>
      some ({ p with eolCount := 2, len := p.len - 2, buf := b, st := .skip },
        decide (p.ckCount = 0) || (decide (p.ckCount ≠ 0) && decide (p.ckRead = p.ckCalc)))

/-- The `switch` (parser.c 132-204). -/
def dispatch (p : P) (c : Nat) : Option (P × Bool) :=
  match p.st with
  | .skip => inSentence p c
  | .sentence => inSentence p c
  | .checksum => inChecksum p c
  | .eol => inEol p c

/-- `parser->buffer[parser->bufferLength++] = *c`. -/
def append (p : P) (c : Nat) : Option P := (write p.buf p.len c).map (fun b => { p with buf := b, len := p.len + 1 })

/-- `nmeaParserProcessCharacter` (parser.c 103-208). -/
def process (p : P) (c : Nat) : Option (P × Bool) :=
  if c = 36 then (reset p .sentence).bind (fun q => (append q c).map (fun r => (r, false)))
  else if p.st = .skip then some (p, false)
  else if p.len ≥ p.buf.length - 1 then fail p
  else (append p c).bind (fun q => dispatch q c)

/-- `nmeaParserParse` (parser.c 210-232): the texts that are handed to `nmeaSentenceToInfo`. -/
def parse (p : P) : List Nat → Option (P × List (List Nat))
  | [] => some (p, [])
  | c :: cs =>
    match process p c with
    | none => none
    | some (q, b) =>
      match parse q cs with
      | none => none
      | some (r, out) => some (r, if b = true then q.buf.take q.len :: out else out)

/-- Several calls of `nmeaParserParse`, one for each piece of the input. -/
def parseAll (p : P) : List (List Nat) → Option (P × List (List Nat))
  | [] => some (p, [])
  | s :: ss =>
    match parse p s with
    | none => none
    | some (q, out) =>
      match parseAll q ss with
      | none => none
      | some (r, out') => some (r, out ++ out')

/-- `nmeaCalculateCRC` (util.c 106-124). -/
def crc (s : List Nat) : Nat :=
  match s with
  | [] => 255
  | c :: cs => (if c = 36 then cs.foldl (· ^^^ ·) 0 else (c :: cs).foldl (· ^^^ ·) 0) % 256

/-- A digit of `%02X`. -/
def hexDigit (d : Nat) : Nat := if d < 10 then d + 48 else d + 55

/-- `nmeaAppendChecksum` (util.c 236-250) with enough space: the whole text. -/
def appendChecksum (s : List Nat) : List Nat :=
  s ++ [42, hexDigit (crc s / 16), hexDigit (crc s % 16), 13, 10]

end Verif.NmeaFrame
