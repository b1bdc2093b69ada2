/-!
# Model of the fixed point numbers (src/fpm.c, src/fpm.h)

`long` has 64 bits and `int` 32.  A shift of a negative number is the arithmetic one that the usual compilers have; a shift to
the left out of the range is undefined.  The functions that take or give a `float` or a `double` are not modelled.
-/

namespace Verif.Fpm

/-- What a call does: an assertion stops the program, its behaviour is undefined, or it gives a number. -/
inductive Out where
  | abort
  | ub
  | ok (r : Int)
deriving DecidableEq, Repr

/-- `FPM_INT_MAX` (fpm.h 63). -/
def intMax : Int := 9223372036854775807

/-- `FPM_INT_MIN` (fpm.h 64). -/
def intMin : Int := -9223372036854775808

/-- `FPM_MAX` (fpm.h 61). -/
def fpmMax : Int := 9007199254740991

/-- `FPM_MIN` (fpm.h 62). -/
def fpmMin : Int := -9007199254740992

/-- `(double)FPM_INT_MAX`: the next number that a `double` holds. -/
def dMax : Int := 9223372036854775808

/-- A signed operation with result `x`. -/
def signed (x : Int) : Out := if intMin ≤ x ∧ x ≤ intMax then .ok x else .ub

/-- A shift to the right by `FPM_BIT` of the result. -/
def shr : Out → Out
  | .ok x => .ok (x / 1024)
  | o => o

/-- `itofpm_def` (fpm.h 66). -/
def itofpmDef (i : Int) : Out := signed (i * 1024)

/-- `fpmtoi_def` (fpm.h 68): the result is an `int`. -/
def fpmtoi (a : Int) : Int := (a / 1024 + 2147483648) % 4294967296 - 2147483648

/-- `fpmadd_def` (fpm.h 72). -/
def addDef (a b : Int) : Out := signed (a + b)

/-- `fpmsub_def` (fpm.h 73). -/
def subDef (a b : Int) : Out := signed (a - b)

/-- `fpmmul_def` (fpm.h 74). -/
def mulDef (a b : Int) : Out := shr (signed (a * b))

/-- `fpmimul_def`, `fpmmuli_def` (fpm.h 80-81): one of the factors is an `int`. -/
def muliDef (a b : Int) : Out := signed (a * b)

/-- `fpmidiv_def` (fpm.h 86), `fpmidiv` (fpm.c 157-163), and the division in `fpmdiv_def`. -/
def idivDef (a b : Int) : Out := if b = 0 then .ub else signed (Int.tdiv a b)

/-- `fpmdiv_def` (fpm.h 75), `fpmdiv` (fpm.c 121-135). -/
def divDef (a b : Int) : Out :=
  match signed (a * 1024) with
  | .ok x => idivDef x b
  | o => o

/-- `itofpm` (fpm.c 54-59). -/
def itofpm (i : Int) : Out := if fpmMin ≤ i ∧ i ≤ fpmMax then itofpmDef i else .abort

/-- `fpmadd` (fpm.c 91-99). -/
def fpmadd (a b : Int) : Out :=
  if ¬ (0 > a ∨ 0 > b ∨ intMax - a ≥ b) then .abort
  else if ¬ (0 ≤ a ∨ 0 ≤ b ∨ a ≥ intMin - b) then .abort
  else addDef a b

/-- `fpmsub` (fpm.c 101-109). -/
def fpmsub (a b : Int) : Out :=
  if ¬ (0 > a ∨ 0 ≤ b ∨ a < intMax + b) then .abort
  else if ¬ (0 ≤ a ∨ 0 > b ∨ a ≥ intMin + b) then .abort
  else subDef a b

/-- The assertions of the products (fpm.c 115-116, 141-142, 151-152); the product of two `double` is taken as the exact one. -/
def mulAssert (a b : Int) : Bool :=
  (decide (0 < a) != decide (0 < b) || decide (a * b ≤ dMax)) && (decide (0 < a) == decide (0 < b) || decide (a * b ≥ intMin))

/-- `fpmmul` (fpm.c 111-119). -/
def fpmmul (a b : Int) : Out := if mulAssert a b = true then mulDef a b else .abort

/-- `fpmimul`, `fpmmuli` (fpm.c 137-155). -/
def fpmmuli (a b : Int) : Out := if mulAssert a b = true then muliDef a b else .abort

/-- The two numbers of the text of `fpmtoa` (fpm.c 182): `%ld.%03ld`. -/
def parts (a : Int) : Int × Int := (a / 1024, (1000 * (a % 1024) + 512) / 1024)

/-- The static memory of `fpmtoa` (fpm.c 178-179): the texts as their numbers. -/
structure Ring where
  idx : Nat
  ret : Nat → Int × Int

/-- `fpmtoa` (fpm.c 175-184): the index of the text that is given back. -/
def fpmtoa (r : Ring) (a : Int) : Nat × Ring :=
  ((r.idx + 1) % 4, ⟨(r.idx + 1) % 4, fun j => if j = (r.idx + 1) % 4 then parts a else r.ret j⟩)

/-- Further calls. -/
def calls : Ring → List Int → Ring
  | r, [] => r
  | r, a :: as => calls (fpmtoa r a).2 as

end Verif.Fpm
