/-!
# What a sentence is (C146)

Written without the state machine: a dollar sign, printable characters, perhaps a checksum, and the end of the line.
-/

namespace Verif.NmeaFrame

/-- A character that may occur between the dollar sign and the checksum. -/
def Plain (c : Nat) : Prop :=
  32 ≤ c ∧ c ≤ 126 ∧ c ≠ '$'.toNat ∧ c ≠ '*'.toNat ∧ c ≠ '!'.toNat ∧ c ≠ '\\'.toNat ∧ c ≠ '^'.toNat ∧ c ≠ '~'.toNat

/-- All characters are plain. -/
def AllPlain (b : List Nat) : Prop := ∀ c ∈ b, Plain c

/-- `c` is the hexadecimal digit of value `v`. -/
def Hex (c v : Nat) : Prop :=
  (v < 10 ∧ c = '0'.toNat + v) ∨ (10 ≤ v ∧ v < 16 ∧ (c = 'A'.toNat + (v - 10) ∨ c = 'a'.toNat + (v - 10)))

/-- All characters put together with exclusive or. -/
def xorAll : List Nat → Nat
  | [] => 0
  | c :: cs => c ^^^ xorAll cs

/-- What follows the body: nothing, or a star and the checksum in two digits. -/
def Tail (b t : List Nat) : Prop :=
  t = [] ∨ ∃ c1 c2 v1 v2, t = ['*'.toNat, c1, c2] ∧ Hex c1 v1 ∧ Hex c2 v2 ∧ 16 * v1 + v2 = xorAll b

/-- The text of a sentence. -/
def Text (s : List Nat) : Prop := ∃ b t, AllPlain b ∧ Tail b t ∧ s = '$'.toNat :: (b ++ t)

/-- The input ends with the sentence `s` and an end of line, and both together fit into `n` characters. -/
def Ends (n : Nat) (input s : List Nat) : Prop :=
  Text s ∧ s.length + 2 ≤ n ∧ ∃ pre, input = pre ++ s ++ ['\r'.toNat, '\n'.toNat]

/-- The sentences of an input, in the order of their ends. -/
inductive Sentences (n : Nat) : List Nat → List (List Nat) → Prop where
  | nil : Sentences n [] []
  | other (cs : List Nat) (c : Nat) (out : List (List Nat)) (h : Sentences n cs out)
      (hn : ∀ s, ¬ Ends n (cs ++ [c]) s) : Sentences n (cs ++ [c]) out
  | one (cs : List Nat) (c : Nat) (out : List (List Nat)) (s : List Nat) (h : Sentences n cs out)
      (he : Ends n (cs ++ [c]) s) : Sentences n (cs ++ [c]) (out ++ [s])

end Verif.NmeaFrame
