/-!
# Model of the gateway speed codec (`src/gateway.c:211-262`)
-/

namespace Verif.GwSpeed

/-- `MAX_SMARTGW_SPEED` (olsr_cfg.h) -/
abbrev maxSpeed : Nat := 320000000

/-- `while (exp-- > 0) speed *= 10;` on a `uint32_t` (gateway.c:227-229) -/
def scale : Nat → Nat → Nat
  | 0, speed => speed
  | e + 1, speed => scale e (speed * 10 % 4294967296)

/-- `deserialize_gw_speed` (gateway.c:211-231) -/
def decode (value : Nat) : Nat :=
  if value = 0 then 0
  else if value = 255 then maxSpeed
  else scale (value % 8) (value / 8 + 1)

/-- the loop at gateway.c:257-260; the first argument is `7 - exp`, the number of divisions still allowed -/
def shrink : Nat → Nat → Nat → Nat × Nat
  | 0, speed, exp => (speed, exp)
  | k + 1, speed, exp =>
    if speed > 32 ∨ speed % 10 = 0 then shrink k (speed / 10) (exp + 1) else (speed, exp)

/-- `serialize_gw_speed` (gateway.c:242-262); the result is a `uint8_t`; `speed - 1` wraps for 0 -/
def encode (speed : Nat) : Nat :=
  if speed = 0 then 0
  else
    let speed := if speed = 1 then speed + 1 else speed
    if speed ≥ maxSpeed then 255
    else
      let r := shrink 7 speed 0
      ((r.1 + 4294967295) % 4294967296 * 8 + r.2) % 256

end Verif.GwSpeed
