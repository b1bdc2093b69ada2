/-!
# Sequence-number comparison

16-bit sequence numbers are `Nat` values below 65536.
-/

namespace Verif.Seqno

/-- `SEQNO_GREATER_THAN` (src/olsr_protocol.h:191-193), `MAXVALUE` = 0xFFFF (:188).
The operands are promoted to `int`, so the subtractions are exact. -/
def greater (s1 s2 : Nat) : Bool :=
  (decide (s1 > s2) && decide ((s1 : Int) - s2 ≤ 0xFFFF / 2)) ||
  (decide (s2 > s1) && decide ((s2 : Int) - s1 > 0xFFFF / 2))

/-- `olsr_seqno_diff` (src/duplicate_set.c:106-117). -/
def diff (seqno1 seqno2 : Nat) : Int :=
  let d : Int := (seqno1 : Int) - seqno2
  if d > 32768 then d - 65536
  else if d < -32768 then d + 65536
  else d

end Verif.Seqno
