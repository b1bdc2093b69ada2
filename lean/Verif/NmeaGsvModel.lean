/-!
# Model of the satellites in view of nmealib (lib/pud/nmealib/src/gpgsv.c)

An array is a function of its index; an access outside of it is `none`.  The text of a sentence is not modelled: `nmeaGPGSVParse`
starts with the numbers that were read, `nmeaGPGSVGenerate` ends with the satellites that are printed.
-/

namespace Verif.NmeaGsv

/-- `NmeaSatellite` (info.h 204-209). -/
structure Sat where
  prn : Nat
  elv : Int
  azi : Nat
  snr : Nat
deriving DecidableEq, Repr

/-- A cleared entry. -/
def zero : Sat := ⟨0, 0, 0, 0⟩

/-- The parts of `NmeaInfo` that are used; `pCount`, `pView` are bits of `present`, `mask` is the bit of `smask`. -/
structure Info where
  pCount : Bool
  pView : Bool
  count : Nat
  view : Nat → Sat
  inProgress : Bool
  mask : Bool

/-- `NmeaGPGSV` (gpgsv.h 108-114); `view` has 4 entries. -/
structure Pack where
  pCount : Bool
  pView : Bool
  sentences : Nat
  sentence : Nat
  count : Nat
  view : Nat → Sat

/-- `nmeaGPGSVsatellitesToSentencesCount` (gpgsv.c 28-42). -/
def sentencesCount (n : Nat) : Nat := if n = 0 then 1 else if n % 4 ≠ 0 then n / 4 + 1 else n / 4

/-- The checks of `nmeaGPGSVParse` (gpgsv.c 93-147; the check for UINT_MAX before and that of the satellites after it are left out) for the numbers that were read; 72 is `NMEALIB_MAX_SATELLITES`. -/
def parseOk (sentences sentence count tokens : Nat) : Bool :=
  if count > 72 then false
  else if sentences = 0 then false
  else if sentences > 18 then false
  else if sentences ≠ sentencesCount count then false
  else if sentence = 0 then false
  else if sentence > sentences then false
  else if tokens ≠ 3 + 4 * (if sentence ≠ sentences then 4 else count - (sentences - 1) * 4) ∧ tokens ≠ 19 then false
  else true

/-- The loop over the satellites of a sentence (gpgsv.c 230-239). -/
def copyIn (pv : Nat → Sat) (p i : Nat) : Nat → (Nat → Sat) → Option (Nat → Sat)
  | 0, v => some v
  | n + 1, v =>
    if i < 72 then
      if p < 4 then
        copyIn pv (p + 1) (i + 1) n (fun j => if j = i then (if (pv p).prn = 0 then zero else pv p) else v j)
      else none
    else some v

/-- The clearing of the satellites after the sentence (gpgsv.c 221-228); `memset` of more than the array is `none`. -/
def clearAfter (start : Nat) (v : Nat → Sat) : Option (Nat → Sat) :=
  if start ≤ 72 then some (fun j => if start ≤ j ∧ j < 72 then zero else v j) else none

/-- The first part of `nmeaGPGSVToInfo` (gpgsv.c 178-187): `none` if it returns. -/
def takeCount (k : Pack) (i : Info) : Option Info :=
  if k.pCount = true then
    if k.count > 72 then none else some { i with count := k.count, pCount := true }
  else some i

/-- The checks of the second part (gpgsv.c 193-219). -/
def viewOk (k : Pack) : Bool :=
  decide (k.sentences ≠ 0 ∧ k.sentences ≤ 18 ∧ k.sentences = sentencesCount k.count ∧ k.sentence ≠ 0 ∧ k.sentence ≤ k.sentences)

/-- `nmeaGPGSVToInfo` (gpgsv.c 172-249). -/
def toInfo (k : Pack) (i : Info) : Option Info :=
  match takeCount k i with
  | none => some i
  | some i1 =>
    if k.pView = true then
      if viewOk k = false then some i1
      else
        match clearAfter (k.sentence * 4) i1.view with
        | none => none
        | some v =>
          match copyIn k.view 0 ((k.sentence - 1) * 4) 4 v with
          | none => none
          | some v' =>
            some { i1 with view := v', pView := true, inProgress := decide (k.sentence ≠ k.sentences), mask := true }
    else some { i1 with mask := true }

/-- The empty pack. -/
def empty : Pack := ⟨false, false, 0, 0, 0, fun _ => zero⟩

/-- `nmeaGPGSVFromInfo` (gpgsv.c 251-292). -/
def fromInfo (i : Info) (sentence : Nat) : Pack :=
  if i.pCount = false ∨ i.count = 0 then empty
  else if sentence ≥ sentencesCount i.count then empty
  else if i.pView = true then
    ⟨true, true, sentencesCount i.count, sentence + 1, i.count,
      fun p => if p < 4 ∧ sentence * 4 + p < 72 then i.view (sentence * 4 + p) else zero⟩
  else ⟨true, false, sentencesCount i.count, 0, i.count, fun _ => zero⟩

/-- The number of satellites that `nmeaGPGSVGenerate` prints (gpgsv.c 311-333), as a `size_t`; the shift is one of an `unsigned int`. -/
def printed (k : Pack) : Nat :=
  if k.pView = true then
    if k.sentence ≠ k.sentences then 4
    else
      ((if k.pCount = true then k.count else 0) + 18446744073709551616 -
        ((k.sentences + 4294967295) % 4294967296 * 4) % 4294967296) % 18446744073709551616
  else 0

/-- The satellites that are printed (gpgsv.c 333-340): `none` if the loop leaves the array. -/
def generate (k : Pack) : Option (List Sat) :=
  if printed k ≤ 4 then some ((List.range (printed k)).map k.view) else none

/-- The sentences that `nmeaSentenceFromInfo` makes (sentence.c 170-181). -/
def packs (i : Info) : List Pack :=
  (List.range (sentencesCount (if i.pCount = true then i.count else 0))).map (fromInfo i)

/-- One pack after the other. -/
def toInfoAll : List Pack → Info → Option Info
  | [], i => some i
  | k :: ks, i =>
    match toInfo k i with
    | none => none
    | some i' => toInfoAll ks i'

end Verif.NmeaGsv
