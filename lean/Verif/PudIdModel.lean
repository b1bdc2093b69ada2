/-
Model of the node ids of the pud plugin: from the configured text
(/repo/lib/pud/src/configuration.c, configTools.c) to the binary form and back to a
text (/repo/lib/pud/wireformat/src/nodeIdConversion.c), and how the binary form lies
in the message (wireFormat.c).

Simplifications: characters and bytes are numbers; a string ends with its list.  The
characters that the external nmealib rejects are a parameter.  `strtoull` and
`snprintf` are modelled as the C standard describes them in the C locale.
-/
namespace Verif.PudId

/-! ### Reading numbers -/

/-- Value of a digit for `strtoull`. -/
def digitVal (base c : Nat) : Option Nat :=
  if 48 ≤ c ∧ c ≤ 57 then some (c - 48)
  else if base = 16 ∧ 97 ≤ c ∧ c ≤ 102 then some (c - 87)
  else if base = 16 ∧ 65 ≤ c ∧ c ≤ 70 then some (c - 55)
  else none

/-- `isspace` in the C locale. -/
def isSpace (c : Nat) : Bool := c == 32 || (decide (9 ≤ c) && decide (c ≤ 13))

/-- The digits of a number; `none` if another character is among them. -/
def digits (base : Nat) : List Nat → Nat → Option Nat
  | [], acc => some acc
  | c :: cs, acc => (digitVal base c).bind (fun d => digits base cs (acc * base + d))

/-- `strtoull` skips `0x` in base 16 if a digit follows. -/
def unprefix (base : Nat) : List Nat → List Nat
  | 48 :: x :: c :: r =>
    if base = 16 ∧ (x = 120 ∨ x = 88) ∧ (digitVal base c).isSome then c :: r else 48 :: x :: c :: r
  | r => r

/-- A number without sign that takes up the whole rest of the string and does not
overflow. -/
def magnitude (base : Nat) (r : List Nat) : Option Nat :=
  if unprefix base r = [] then none
  else (digits base (unprefix base r) 0).bind (fun v => if v < 2 ^ 64 then some v else none)

/-- The sign of `strtoull`: a negative number is taken modulo 2^64. -/
def signed (base : Nat) : List Nat → Option Nat
  | 45 :: r => (magnitude base r).map (fun v => (2 ^ 64 - v) % 2 ^ 64)
  | 43 :: r => magnitude base r
  | r => magnitude base r

/-- configTools.c 230-250: `readULL`. -/
def readULL (base : Nat) (s : List Nat) : Option Nat := signed base (s.dropWhile isSpace)

/-! ### From the configuration to the binary form -/

/-- nodeIdConversion.c 296-300: `k` bytes, most significant first. -/
def toBytes : Nat → Nat → List Nat
  | 0, _ => []
  | k + 1, v => toBytes k (v / 256) ++ [v % 256]

/-- Outcome of the configuration: refused, a failed assertion, or the bytes. -/
inductive Setup where
  | reject
  | abort
  | ok (b : List Nat)
  deriving DecidableEq, Repr

/-- wireFormat.h 238-295: minimum, maximum and bytes of the types that are one number. -/
def numType (typ : Nat) : Option (Nat × Nat × Nat) :=
  if typ = 1 then some (0, 999999999999999, 7)
  else if typ = 2 then some (0, 99999999999999999, 8)
  else if typ = 7 then some (0, 999999999, 4)
  else if typ = 8 then some (0, 16777215, 3)
  else if typ = 192 then some (0, 9999999, 3)
  else if typ = 193 then some (0, 999999, 3)
  else if typ = 194 then some (1, 8191, 2)
  else none

/-- configuration.c 271-286 `intSetupNodeIdBinaryLongLong`, nodeIdConversion.c 291-309. -/
def setupNum (lo hi k : Nat) (s : List Nat) : Setup :=
  match readULL 10 s with
  | none => .reject
  | some v =>
    if v < lo ∨ hi < v then .reject
    else if v < 256 ^ k then .ok (toBytes k v) else .abort

/-- nodeIdConversion.c 332-361: `setupNodeIdBinaryDoubleLongLong`. -/
def store (v1 k1 v2 k2 : Nat) : Setup :=
  if v1 < 256 ^ k1 ∧ v2 < 256 ^ k2 then .ok (toBytes k1 v1 ++ toBytes k2 v2) else .abort

/-- configuration.c 313-371: `intSetupNodeIdBinaryDoubleLongLong`; the minima are 0.  If
there are no characters behind the first part then that is the second number. -/
def setupTwo (chars max1 k1 max2 k2 base : Nat) (s : List Nat) : Setup :=
  match readULL base (s.take chars) with
  | none => .reject
  | some v1 =>
    if max1 < v1 then .reject
    else if s.length ≤ chars then store 0 k1 v1 k2
    else
      match readULL base (s.drop chars) with
      | none => .reject
      | some v2 => if max2 < v2 then .reject else store v1 k1 v2 k2

/-- configuration.c 382-503: `setupNodeIdBinaryAndValidate` for the types with a
configured id that is not empty. -/
def setup (valid : Nat → Bool) (typ : Nat) (s : List Nat) : Setup :=
  if typ = 3 then (if s.all valid ∧ s.length ≤ 1023 then .ok (s ++ [0]) else .reject)
  else if typ = 5 then setupTwo 16 (2 ^ 64 - 1) 8 (2 ^ 64 - 1) 8 16 s
  else if typ = 9 then setupTwo 1 9 1 9999999999999999999 8 10 s
  else
    match numType typ with
    | some (lo, hi, k) => setupNum lo hi k s
    | none => .reject

/-! ### From the message to a text -/

/-- The character of a digit of `%llu` and `%llx`. -/
def charOf (d : Nat) : Nat := if d < 10 then 48 + d else 87 + d

/-- `snprintf` with `%llu` or `%llx`; `fuel` bounds the number of digits. -/
def render (base : Nat) : Nat → Nat → List Nat
  | 0, _ => []
  | fuel + 1, n => (if n / base = 0 then [] else render base fuel (n / base)) ++ [charOf (n % base)]

/-- nodeIdConversion.c 104-111, 135-142: bytes to a number of 64 bits. -/
def num (b : List Nat) : Nat := b.foldl (fun acc x => (acc * 256 + x) % 2 ^ 64) 0

/-- `%02x`. -/
def hex2 (b : Nat) : List Nat := [charOf (b / 16), charOf (b % 16)]

/-- A byte of the memory behind the place of the node id. -/
def at' (mem : List Nat) (i : Nat) : Nat := mem.getD i 0

/-- nodeIdConversion.c 192-194: a link-layer address. -/
def macText (mem : List Nat) : List Nat :=
  hex2 (at' mem 0) ++ 58 :: hex2 (at' mem 1) ++ 58 :: hex2 (at' mem 2) ++ 58 :: hex2 (at' mem 3) ++
    58 :: hex2 (at' mem 4) ++ 58 :: hex2 (at' mem 5)

/-- wireFormat.c 732-743: the name ends at a zero byte or at the end of the message. -/
def dnsLen (mem : List Nat) (left : Nat) : Nat := ((mem.take left).takeWhile (· ≠ 0)).length

/-- nodeIdConversion.c 219-230: the second half is written 16 characters behind the
first, which ends with a zero byte. -/
def uuidText (mem : List Nat) : List Nat :=
  if (render 16 16 (num (mem.take 8))).length < 16 then render 16 16 (num (mem.take 8))
  else render 16 16 (num (mem.take 8)) ++ render 16 16 (num ((mem.drop 8).take 8))

/-- nodeIdConversion.c 232-243. -/
def mipText (mem : List Nat) : List Nat :=
  (render 10 20 (num (mem.take 1))).take 1 ++ render 10 20 (num ((mem.drop 1).take 8))

/-- nodeIdConversion.c 170-262 `getNodeIdStringFromOlsr`, wireFormat.c 710-786: `mem` are
the bytes from the place of the node id on, of which `left` belong to the message;
`orig` is the text of the originator. -/
def idText (orig : List Nat) (typ : Nat) (mem : List Nat) (left : Nat) : List Nat :=
  if typ = 0 then macText mem
  else if typ = 3 then mem.take (min (dnsLen mem left) 1023)
  else if typ = 5 then uuidText mem
  else if typ = 9 then mipText mem
  else
    match numType typ with
    | some (_, _, k) => render 10 20 (num (mem.take k))
    | none => orig

/-- How many of these bytes are looked at. -/
def reach (typ : Nat) (mem : List Nat) (left : Nat) : Nat :=
  if typ = 0 then 6
  else if typ = 3 then dnsLen mem left + 1
  else if typ = 5 then 16
  else if typ = 9 then 9
  else
    match numType typ with
    | some (_, _, k) => k
    | none => 0

/-! ### Names in the message -/

/-- wireFormat.c 853-867: the bytes of a name that are put into a message for which
`size` bytes are available; `n` is the length of the name.  One is added for the zero
byte although the binary form counts it already; the size of the message header is not
subtracted. -/
def dnsBytes (n size : Nat) : Nat := min (n + 2) (size - (21 + 1) - 1)

/-- The contents of the place of the node id after this: the binary form, which is
followed by what the buffer held before (`old`), and a zero byte. -/
def dnsMem (s old : List Nat) (size : Nat) : List Nat :=
  ((s ++ 0 :: old).take (dnsBytes s.length size)) ++ [0]

/-- receiver.c 174-209, wireFormat.h 340-360: where the place of the node id is in the
buffer of 1024 bytes: behind the uplink header (4), the header of the message (12 or
24), the fixed part (21) and the type (1). -/
def idOffset (v6 : Bool) : Nat := 4 + (if v6 then 24 else 12) + 21 + 1

/-- receiver.c 208-209: the size that is passed. -/
def txSize : Nat := 1024 - 4

end Verif.PudId
