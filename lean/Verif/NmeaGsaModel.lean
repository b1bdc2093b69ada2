/-!
# Model of the satellites in use of nmealib (lib/pud/nmealib/src/gpgsa.c)

The text of a sentence and the three numbers of the dilution of precision, which are only copied, are not modelled: `nmeaGPGSAParse`
starts with the values that were read.
-/

namespace Verif.NmeaGsa

/-- The parts of `NmeaInfo` that are used; `pSig`, `pFix`, `pUse`, `pCount` are bits of `present`; `use` has 72 entries. -/
structure Info where
  pSig : Bool
  pFix : Bool
  pUse : Bool
  pCount : Bool
  sig : Nat
  fix : Int
  use : Nat → Nat
  count : Nat

/-- `NmeaGPGSA` (gpgsa.h 91-99); `prn` has 12 entries; `sig` is a character. -/
structure Pack where
  pSig : Bool
  pFix : Bool
  pUse : Bool
  sig : Nat
  fix : Int
  prn : List Nat
deriving DecidableEq

/-- The loop over the satellites of the sentence (gpgsa.c 104-110): whether there are none. -/
def noPrns : List Nat → Bool
  | [] => true
  | p :: ps => if p ≠ 0 then false else noPrns ps

/-- The checks of `nmeaGPGSAParse` (gpgsa.c 73-113) for the values that were read: `sig` is 0 and `fix` is `INT_MAX` if they are absent;
77 and 65 are M and A. -/
def parse (tokens sig : Nat) (fix : Int) (prn : List Nat) : Option Pack :=
  if tokens ≠ 17 then none
  else if sig ≠ 0 ∧ sig ≠ 65 ∧ sig ≠ 77 then none
  else if fix ≠ 2147483647 ∧ (fix < 1 ∨ fix > 3) then none
  else some ⟨decide (sig ≠ 0), decide (fix ≠ 2147483647), !noPrns prn, sig, if fix ≠ 2147483647 then fix else 1, prn⟩

/-- The loop that stores the satellites (gpgsa.c 174-180). -/
def store : List Nat → Nat → (Nat → Nat) → Nat → (Nat → Nat) × Nat
  | [], _, u, c => (u, c)
  | p :: ps, i, u, c =>
    if i < 72 then
      if p ≠ 0 then store ps (i + 1) (fun j => if j = i then p else u j) (c + 1) else store ps i u c
    else (u, c)

/-- `nmeaGPGSAToInfo` (gpgsa.c 141-199): only the first entry is cleared (line 172). -/
def toInfo (k : Pack) (n : Info) : Info :=
  let n1 := if k.pSig = true ∧ n.sig = 0 then { n with sig := if k.sig = 77 then 7 else 1, pSig := true } else n
  let n2 := if k.pFix = true then { n1 with fix := k.fix, pFix := true } else n1
  if k.pUse = true then
    let r := store k.prn 0 (fun j => if j = 0 then 0 else n2.use j) 0
    { n2 with use := r.1, count := r.2, pCount := true, pUse := true }
  else n2

/-- The loop that collects the satellites (gpgsa.c 229-234). -/
def gather (u : Nat → Nat) : Nat → Nat → List Nat → List Nat
  | 0, _, acc => acc
  | n + 1, i, acc => if acc.length < 12 then gather u n (i + 1) (if u i ≠ 0 then acc ++ [u i] else acc) else acc

/-- `nmeaGPGSAFromInfo` (gpgsa.c 201-253); the entries that are not set are 0. -/
def fromInfo (n : Info) : Pack :=
  let g := if n.pUse = true then gather n.use 72 0 [] else []
  ⟨n.pSig, n.pFix, n.pUse, if n.pSig = true then (if n.sig = 7 then 77 else 65) else 0, if n.pFix = true then n.fix else 1,
    g ++ List.replicate (12 - g.length) 0⟩

end Verif.NmeaGsa
