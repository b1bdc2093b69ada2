/-!
# Model of `src/mantissa.c`

`olsr_reltime` is `uint32_t` (src/olsr_types.h / mantissa.h); intervals are
modelled as `Nat` with explicit reduction modulo `2^32` where the C code could
wrap.  `none` stands for undefined behaviour (an out-of-range shift count).
-/

namespace Verif.Mantissa

/-- 32-bit unsigned wrap-around. -/
def wrap32 (n : Nat) : Nat := n % 4294967296

/-- C expression `x << s` on a 32-bit unsigned `x`: undefined for `s ≥ 32`. -/
def shl32 (x s : Nat) : Option Nat := if s < 32 then some (wrap32 (x * 2 ^ s)) else none

/-- The loop of mantissa.c:79-82: `b = 0; while (unscaled >= (1U << b)) b++;`.
`fuel` bounds the number of iterations; 40 iterations is more than the loop can
take before `1U << b` becomes undefined (`b = 32`), so running out of fuel is
never reached before the `none` of `shl32`. -/
def findB (unscaled : Nat) : Nat → Nat → Option Nat
  | 0, _ => none
  | fuel + 1, b =>
    match shl32 1 b with
    | none => none
    | some v => if unscaled ≥ v then findB unscaled fuel (b + 1) else some b

/-- The part of `reltime_to_me` after the exponent loop (mantissa.c:84-132).
`a` and `b` are `uint8_t`; the subtraction and the multiplication are in
`unsigned int` (32 bit). -/
def mantissaOf (interval b0 : Nat) : Option Nat :=
  if b0 = 0 then some ((1 * 16) ||| 0)                              -- :84-86, :132
  else
    let b := b0 - 1                                                  -- :88
    if b > 15 then some ((15 * 16) ||| 15)                           -- :89-91
    else if b = 0 then none          -- `125u << (b - 1)` with b = 0: shift by -1
    else
      match shl32 125 (b - 1) with
      | none => none
      | some base =>
        let d := wrap32 (interval + 4294967296 - base)               -- `interval - base`
        let a? : Option Nat :=
          if b ≥ 5 then
            (shl32 125 (b - 5)).map (fun q => (d / q) % 256)         -- :122
          else
            (shl32 1 (5 - b)).map (fun q => (wrap32 (d * q) / 125) % 256)   -- :124
        match a? with
        | none => none
        | some a =>
          let b' := (b + a / 16) % 256                                -- :127
          let a' := a % 16                                            -- :128
          some ((a' * 16) ||| (b' % 16))                              -- :132

/-- `reltime_to_me` (mantissa.c:62-133). -/
def relToMe (interval : Nat) : Option Nat :=
  match findB (wrap32 (interval / 125 * 2)) 40 0 with                -- :78-82
  | none => none
  | some b0 => mantissaOf interval b0

/-- `me_to_reltime` (mantissa.c:170-180).  The arithmetic is in `int`; the
largest value `(31 << 7) * 1000` fits, so no overflow is possible. -/
def meToRel (me : Nat) : Nat :=
  let a := me / 16
  let b := me % 16
  if b ≥ 8 then ((16 + a) * 2 ^ (b - 8)) * 1000
  else ((16 + a) * 1000) / 2 ^ (8 - b)

end Verif.Mantissa
