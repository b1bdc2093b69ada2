import Verif.PosAvgModel

/-!
# The average over a window

The entries that count are the last `n` that were added since the last flush, the newest first.
-/

namespace Verif.PosAvg

/-- The window after one more event. -/
def slide (n : Nat) (w : List Ent) : Ev → List Ent
  | .fill _ => w
  | .take fl e => if fl then [e] else (e :: w).take n

/-- The window after a series of events. -/
def window (n : Nat) (w : List Ent) : List Ev → List Ent
  | [] => w
  | e :: es => window n (slide n w e) es

/-- The sum of a value. -/
def total (f : Fin 13) : List Ent → Int
  | [] => 0
  | e :: w => e.val f + total f w

/-- How good a signal is. -/
def grade : Sig → Nat
  | .sensitive => 3
  | .differential => 2
  | .fix => 1
  | .other => 0

/-- How good a fix is. -/
def fixGrade : Fix → Nat
  | .d3 => 2
  | .d2 => 1
  | .bad => 0

end Verif.PosAvg
