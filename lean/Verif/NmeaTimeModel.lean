/-!
# Model of the time and the date of nmealib (lib/pud/nmealib/src/info.c 95-170, util.c, validate.c 97-131, gprmc.c)

A string is its characters before the NUL.  `none` is the result `false`; what is then left in the structure is not modelled, as the
callers do not use it.
-/

namespace Verif.NmeaTime

/-- `NmeaTime` (info.h 162-170). -/
structure Time where
  year : Nat
  mon : Nat
  day : Nat
  hour : Nat
  min : Nat
  sec : Nat
  hsec : Nat
deriving DecidableEq, Repr

/-- `isspace` as it is used in util.c 75, 81 and 97 (the locale C). -/
def isSpace (c : Char) : Bool := c == ' ' || (decide (9 ≤ c.toNat) && decide (c.toNat ≤ 13))

/-- `nmeaStringTrim` (util.c 64-87). -/
def trim (s : List Char) : List Char := (((s.dropWhile isSpace).reverse).dropWhile isSpace).reverse

/-- The digits at the start of a string, as in `strtoul` (util.c 195). -/
def digs : Nat → List Char → Nat
  | v, [] => v
  | v, c :: t => if c.isDigit = true then digs (v * 10 + (c.toNat - 48)) t else v

/-- There is something to convert (util.c 197-203). -/
def lead : List Char → Bool
  | [] => false
  | c :: _ => c.isDigit

/-- `nmeaStringToUnsignedInteger` (util.c 140-148, 179-206) with radix 10 for at most 3 characters without white space; `none` is
`UINT_MAX`.  `strtoul` takes a sign, and a negative number is larger than `UINT_MAX`. -/
def num : List Char → Option Nat
  | '-' :: r => if lead r = true then (if digs 0 r = 0 then some 0 else none) else none
  | '+' :: r => if lead r = true then some (digs 0 r) else none
  | r => if lead r = true then some (digs 0 r) else none

/-- The case `u` of `nmeaScanf` (util.c 354-366, 428-438): a field that starts with `*` counts, but nothing is stored. -/
def field (old : Nat) : List Char → Option Nat
  | '*' :: _ => some old
  | t => num t

/-- `nmeaScanf` with `%2u%2u%2u` (util.c 282-475; info.c 113, 159) for at least 6 characters. -/
def three (a b c : Nat) (t : List Char) : Option (Nat × Nat × Nat) :=
  match field a (t.take 2), field b ((t.drop 2).take 2), field c ((t.drop 4).take 2) with
  | some x, some y, some z => some (x, y, z)
  | _, _, _ => none

/-- `nmeaScanf` with `%2u%2u%2u.%u` (util.c 282-475; info.c 117, 125, 129) for at least 8 characters. -/
def four (o : Time) (t : List Char) : Option Time :=
  match three o.hour o.min o.sec t with
  | none => none
  | some (x, y, z) =>
    match t.drop 6 with
    | '.' :: r =>
      match field o.hsec r with
      | none => none
      | some u => some { o with hour := x, min := y, sec := z, hsec := u }
    | _ => none

/-- `nmeaTimeParseTime` (info.c 95-137). -/
def parseTime (s : List Char) (o : Time) : Option Time :=
  let t := trim s
  if t.any isSpace = true then none
  else if t.length = 6 then
    match three o.hour o.min o.sec t with
    | none => none
    | some (x, y, z) => some { o with hour := x, min := y, sec := z, hsec := 0 }
  else if t.length = 8 then
    match four o t with
    | none => none
    | some r => some { r with hsec := r.hsec * 10 % 4294967296 }
  else if t.length = 9 then four o t
  else if t.length = 10 then
    match four o t with
    | none => none
    | some r => some { r with hsec := (r.hsec + 5) % 4294967296 / 10 }
  else none

/-- `nmeaTimeParseDate` (info.c 139-170). -/
def parseDate (s : List Char) (o : Time) : Option Time :=
  let t := trim s
  if t.any isSpace = true then none
  else if t.length ≠ 6 then none
  else
    match three o.day o.mon o.year t with
    | none => none
    | some (d, m, y) =>
      some { o with day := d, mon := m, year := if y > 90 then (y + 1900) % 4294967296 else (y + 2000) % 4294967296 }

/-- `nmeaValidateTime` (validate.c 97-112). -/
def validTime (t : Time) : Bool := !(decide (t.hour > 23) || decide (t.min > 59) || decide (t.sec > 60) || decide (t.hsec > 99))

/-- `nmeaValidateDate` (validate.c 114-131). -/
def validDate (t : Time) : Bool :=
  !(decide (t.year < 1900) || decide (t.year > 2089) || decide (t.mon < 1) || decide (t.mon > 12) || decide (t.day < 1) ||
    decide (t.day > 31))

/-- The time field of a sentence that is not empty (gprmc.c 81-87, gpgga.c 82-88); `none` is a sentence that is refused. -/
def takeTime (s : List Char) (o : Time) : Option Time :=
  match parseTime s o with
  | none => none
  | some t => if validTime t = true then some t else none

/-- The date field of a sentence that is not empty (gprmc.c 160-166). -/
def takeDate (s : List Char) (o : Time) : Option Time :=
  match parseDate s o with
  | none => none
  | some t => if validDate t = true then some t else none

/-- `%02u` of `snprintf` (gprmc.c 354, 406). -/
def pad2 (n : Nat) : List Char :=
  if n < 10 then ['0', Char.ofNat (48 + n)] else Nat.toDigits 10 n

/-- The time that `nmeaGPRMCGenerate` and `nmeaGPGGAGenerate` print (gprmc.c 353-358, gpgga.c 336-341). -/
def printTime (t : Time) : List Char := pad2 t.hour ++ pad2 t.min ++ pad2 t.sec ++ ['.'] ++ pad2 t.hsec

/-- The date that `nmeaGPRMCGenerate` prints (gprmc.c 405-409). -/
def printDate (t : Time) : List Char := pad2 t.day ++ pad2 t.mon ++ pad2 (t.year % 100)

end Verif.NmeaTime
