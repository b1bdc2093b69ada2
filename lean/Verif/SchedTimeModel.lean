/-!
# Model of the clock helpers of `src/scheduler.c`

`now_times` is a `uint32_t` number of milliseconds; time stamps are `Nat`
values below `2^32`.  `none` stands for signed overflow (undefined behaviour).
-/

namespace Verif.SchedTime

/-- 2^32 -/
scoped notation "W" => (4294967296 : Nat)
/-- `1u << 31` -/
scoped notation "H" => (2147483648 : Nat)

/-- `olsr_getTimestamp` (scheduler.c:177-181): `now_times + s` in `uint32_t`. -/
def getTimestamp (now s : Nat) : Nat := (now + s) % W

/-- `olsr_isTimedOut` (scheduler.c:209-217). -/
def isTimedOut (now s : Nat) : Bool :=
  if s > now then decide (s - now > H) else decide (now - s ≤ H)

/-- conversion `(int32_t) u` of a 32-bit unsigned value (two's complement). -/
def toInt32 (u : Nat) : Int := if u < H then (u : Int) else (u : Int) - (W : Int)

/-- unary minus on `int32_t`: negating `INT32_MIN` is undefined. -/
def negInt32 (i : Int) : Option Int := if i = -(H : Int) then none else some (-i)

/-- `olsr_getTimeDue` (scheduler.c:187-207). -/
def getTimeDue (now s : Nat) : Option Int :=
  if s > now then
    let diff := s - now
    if diff > H then negInt32 (toInt32 (4294967295 - diff))
    else some (toInt32 diff)
  else
    let diff := now - s
    if diff > H then some (toInt32 (4294967295 - diff))
    else negInt32 (toInt32 diff)

/-- `calc_jitter` (scheduler.c:600-622): the expiry time of a timer started now.
`random` is the cached `timer_random` (`unsigned int`); `OLSR_RANDOM_MAX` is
`INT32_MAX` (src/olsr_random.h:55).  `jitter_pct` is `uint8_t`; the product
`jitter_pct * rel_time` and the final subtraction are in `unsigned int`. -/
def calcJitter (now rel pct random : Nat) : Nat :=
  if pct = 0 ∨ pct > 99 ∨ rel > 16777216 then getTimestamp now rel
  else
    let jt := (pct * rel) % W / 100
    let jt' := random / (1 + 2147483647 / (jt + 1))
    getTimestamp now ((rel + W - jt') % W)

end Verif.SchedTime
