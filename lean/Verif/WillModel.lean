/-!
# Model of the willingness that follows the battery (src/linux/apm.c, src/olsr.c 460-485)

A file is what its words are; its lines are shorter than the buffers, and it does not change between the probe and the reading.  `none` is undefined behaviour: a word that is too long for
its array, a word that is used but was not read, a number that does not fit.
-/

namespace Verif.Will

/-- A word of a file. -/
abbrev Tok := List Char

/-- `strcasecmp` with a word of small letters. -/
def same (t : Tok) (s : String) : Bool := t.map Char.toLower == s.toList

/-- `fscanf`, `sscanf` with `n` times `%32s` into arrays of 32 bytes (apm.c 255, 269, 315, 344): the words that are read. -/
def scan (n : Nat) (ts : List Tok) : Option (List Tok) :=
  if (ts.take n).all (fun t => decide (t.length < 32)) = true then some (ts.take n) else none

/-- `strtol` for digits. -/
def digits : Int → Tok → Int
  | v, [] => v
  | v, c :: t => if c.isDigit = true then digits (v * 10 + (c.toNat - 48 : Nat)) t else v

/-- `atoi`; a number that is no `int` is undefined. -/
def atoi (t : Tok) : Option Int :=
  let v := match t with
    | '-' :: r => - digits 0 r
    | '+' :: r => digits 0 r
    | r => digits 0 r
  if -2147483648 ≤ v ∧ v ≤ 2147483647 then some v else none

/-- The loop over the files of the power supplies (apm.c 302-331); `none` in the list is a file that cannot be opened. -/
def acOn : List (Option (List Tok)) → Option Bool
  | [] => some false
  | none :: fs => acOn fs
  | some ts :: fs =>
    match scan 2 ts with
    | none => none
    | some [_, s2] => if same s2 "on-line" = true then some true else acOn fs
    | some _ => acOn fs

/-- The two files of a battery, line by line. -/
structure Bat where
  info : Option (List (List Tok))
  state : Option (List (List Tok))

/-- The loop over the batteries (apm.c 333-365): the first one that can be used. -/
def pick : List Bat → Option (Option (List (List Tok) × List (List Tok)))
  | [] => some none
  | b :: bs =>
    match b.info with
    | none => pick bs
    | some inf =>
      match scan 2 inf.flatten with
      | none => none
      | some [s1, s2] =>
        if same s1 "present:" = true ∧ same s2 "no" = true then pick bs
        else
          match b.state with
          | none => pick bs
          | some st => some (some (inf, st))
      | some _ => pick bs

/-- The loop that looks for the capacity (apm.c 246-259). -/
def readMax : Int → List (List Tok) → Option Int
  | m, [] => some m
  | m, l :: ls =>
    match scan 4 l with
    | none => none
    | some (_ :: s2 :: r) =>
      if same s2 "full" = true then
        match r with
        | [_, s4] =>
          match atoi s4 with
          | none => none
          | some v => readMax v ls
        | _ => none
      else readMax m ls
    | some _ => none

/-- The loop that looks for what is left (apm.c 261-275). -/
def readVal : Int → List (List Tok) → Option Int
  | m, [] => some m
  | m, l :: ls =>
    match scan 4 l with
    | none => none
    | some (s1 :: r) =>
      if same s1 "remaining" = true then
        match r with
        | _ :: s3 :: _ =>
          match atoi s3 with
          | none => none
          | some v => readVal v ls
        | _ => none
      else readVal m ls
    | some [] => none

/-- `abs`. -/
def absInt (x : Int) : Option Int := if x = -2147483648 then none else some (if x < 0 then -x else x)

/-- The percentage (apm.c 279-292). -/
def percent (mx v : Int) : Option Int :=
  match absInt mx, absInt v with
  | some m, some w =>
    let w' := if w > m then m else w
    if m = 0 then some 0
    else if w' ≥ m then some 100
    else if w' * 100 > 2147483647 then none
    else some (Int.tdiv (w' * 100) m)
  | _, _ => none

/-- `struct olsr_apm_info`: on AC power, and the percentage. -/
structure Info where
  ac : Bool
  pct : Int
deriving DecidableEq

/-- `apm_read_acpi` (apm.c 221-295): `some none` is the result 0. -/
def readAcpi (ac : List (Option (List Tok))) (bats : List Bat) : Option (Option Info) :=
  match acOn ac with
  | none => none
  | some on =>
    match pick bats with
    | none => none
    | some none => if on = true then some (some ⟨true, -1⟩) else some none
    | some (some (inf, st)) =>
      match readMax 5000 inf with
      | none => none
      | some mx =>
        match readVal 0 st with
        | none => none
        | some v =>
          match percent mx v with
          | none => none
          | some p => some (some ⟨on, p⟩)

/-- The end of `apm_read_apm` (apm.c 202-218) for the numbers of the file. -/
def readApm (acStatus pct : Int) : Info := ⟨decide (acStatus ≠ 0), if pct > 100 then -1 else pct⟩

/-- The result of `apm_read`. -/
inductive Power where
  | nothing
  | info (i : Info)

/-- `olsr_calculate_willingness` (olsr.c 460-485): the result is a `uint8_t`. -/
def will (auto : Bool) (fixed : Nat) (p : Power) : Nat :=
  if auto = false then fixed
  else
    match p with
    | .nothing => 3
    | .info i => if i.ac = true then 6 else (Int.tdiv i.pct 26 % 256).toNat

end Verif.Will
