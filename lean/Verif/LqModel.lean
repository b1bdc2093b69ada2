/-!
# Model of the link-quality plugins etx_ff, etx_ffeth and etx_fpm

`src/lq_plugin_default_ff.c`, `src/lq_plugin_default_ffeth.c`, `src/lq_plugin_default_fpm.c`, the fixed-point
macros of `src/fpm.h` and the limits of `src/lq_plugin.h`.  `long` is taken to have 64 bits (LP64).  Link qualities
are `uint8_t`, written as `Nat`.
-/

namespace Verif.Lq

/-- `LINK_COST_BROKEN`, `1u << 22` (lq_plugin.h:56) -/
abbrev broken : Nat := 4194304

/-- the common end of the cost functions (lq_plugin_default_ff.c:295-300) -/
def clampCost (cost : Nat) : Nat :=
  if cost ≥ broken then broken else if cost = 0 then 1 else cost

/-- `default_lq_calc_cost_ff` (lq_plugin_default_ff.c:284-301); `(unsigned int)(255 * MINIMAL_USEFUL_LQ)` is 25,
`itofpm` is a shift by 10 -/
def costFf (lq nlq : Nat) : Nat :=
  if lq < 25 ∨ nlq < 25 then broken
  else clampCost (255 * 255 * 1024 / (lq * nlq))

/-- `default_lq_calc_cost_ffeth` (lq_plugin_default_ffeth.c:306-339) -/
def costFfeth (lq nlq : Nat) : Nat :=
  if lq < 25 ∨ nlq < 25 then broken
  else
    let l := if lq > 0 ∧ lq < 255 then lq + 1 else lq
    let n := if nlq > 0 ∧ nlq < 255 then nlq + 1 else nlq
    let cost := 255 * 255 * 1024 / (l * n)
    clampCost (if lq = 255 ∧ nlq = 255 then cost / 10 else cost)

/-- `default_lq_calc_cost_fpm` (lq_plugin_default_fpm.c:112-128); the products stay below 2^31 -/
def costFpm (lq nlq : Nat) : Nat :=
  if lq < 25 ∨ nlq < 25 then broken
  else clampCost (65535 * 255 / lq * 255 / nlq)

/-! ## The packet-loss window of etx_ff -/

/-- `struct default_lq_ff_hello` without the foreign quality (lq_plugin_default_ff.h); `slots[i]` is
`(received[i], total[i])` -/
structure Window where
  windowSize : Nat
  activePtr : Nat
  lastSeq : Nat
  missed : Nat
  slots : List (Nat × Nat)
  valueLq : Nat
deriving DecidableEq

/-- `default_lq_clear_ff_hello` on the zeroed memory of a new link (lq_plugin_default_ff.c:396-407,
lq_plugin.c:493-502) -/
def Window.fresh : Window := ⟨4, 0, 0, 0, List.replicate 32 (0, 3), 0⟩

/-- `seq_diff` (lq_plugin_default_ff.c:199-208) -/
def seqDiff (last seq : Nat) : Nat :=
  let d := if last > seq then seq + 65536 - last else seq - last
  if d > 256 then 1 else d

/-- `default_lq_parser_ff` once the link is found (lq_plugin_default_ff.c:189-215); the counters are `uint16_t` -/
def Window.packet (w : Window) (seq : Nat) : Window :=
  if w.lastSeq = seq then w
  else
    let s := w.slots.getD w.activePtr (0, 0)
    { w with
      slots := w.slots.set w.activePtr ((s.1 + 1) % 65536, (s.2 + seqDiff w.lastSeq seq) % 65536)
      lastSeq := seq
      missed := 0 }

/-- `default_lq_packet_loss_worker_ff` (lq_plugin_default_ff.c:349-358) -/
def Window.lost (w : Window) : Window := { w with missed := (w.missed + 1) % 65536 }

/-- the `int received, total` of a tick (lq_plugin_default_ff.c:231-237) -/
def sums (n : Nat) (slots : List (Nat × Nat)) : Nat × Nat :=
  (((slots.take n).map (·.1)).sum, ((slots.take n).map (·.2)).sum)

/-- the correction for missing hellos (lq_plugin_default_ff.c:246-257); `missed_hellos * loss_helloint` is an
unsigned 32-bit product -/
def corrected (missed helloint received : Nat) : Nat :=
  if missed > 1 then
    let interval := missed * helloint % 4294967296 / 1000
    if interval > 32 then 0 else received * (32 - interval) / 32
  else received

/-- `fpmtoi(ratio)` before the cast to `uint8_t` (lq_plugin_default_ff.c:243-264) -/
def ratio (mult received total : Nat) : Nat :=
  (mult * 1024 / 65536 * received / total * 255) / 1024

/-- `windowSize` after the quickstart step (lq_plugin_default_ff.c:228-230) -/
def grown (n : Nat) : Nat := if n < 32 then n + 1 else n

/-- `valueLq` computed by a tick, before the cast to `uint8_t` (lq_plugin_default_ff.c:228-265) -/
def Window.measure (w : Window) (mult helloint : Nat) : Nat :=
  let s := sums (grown w.windowSize) w.slots
  if s.2 = 0 then 0 else ratio mult (corrected w.missed helloint s.1) s.2

/-- `default_lq_ff_timer` for one link (lq_plugin_default_ff.c:218-271) -/
def Window.tick (w : Window) (mult helloint : Nat) : Window :=
  let p := (w.activePtr + 1) % 32
  { w with
    windowSize := grown w.windowSize
    valueLq := w.measure mult helloint % 256
    activePtr := p
    slots := w.slots.set p (0, 0) }

/-- everything that can happen to a link's window; `tick` carries the link's multiplier and current hello interval -/
inductive Op where
  | packet (seq : Nat)
  | lost
  | tick (mult helloint : Nat)

def Window.step (w : Window) : Op → Window
  | .packet seq => w.packet seq
  | .lost => w.lost
  | .tick mult helloint => w.tick mult helloint

/-- the Ethernet booster of etx_ffeth (lq_plugin_default_ffeth.c:268-283): `ether` is
`link->inter->mode == IF_MODE_ETHER`, the pair is `(valueLq, perfect_eth)` -/
def ethBoost (ether : Bool) (lq : Nat) (perfect : Bool) : Nat × Bool :=
  if ether then
    let p := if lq > 242 then true else if lq > 229 then false else perfect
    (if p then 255 else lq, p)
  else (if lq > 0 then lq - 1 else lq, perfect)

/-! ## Smoothing (etx_ff) -/

/-- a link: measured and smoothed qualities and the link cost -/
structure Link where
  lq : Nat
  nlq : Nat
  slq : Nat
  snlq : Nat
  cost : Nat
deriving DecidableEq

/-- one of the two comparisons of lq_plugin_default_ff.c:123-142: smoothed `s`, measured `m` -/
def relevant (s m : Nat) : Bool :=
  if s < m then decide (m = 255 ∨ m - s > s / 10)
  else if s > m then decide (s - m > s / 10)
  else false

/-- copying the measured quality (lq_plugin_default_ff.c:144-145, 165-166) -/
def Link.update (l : Link) : Link :=
  { l with slq := l.lq, snlq := l.nlq, cost := costFf l.lq l.nlq }

/-- `relevant` for a link (lq_plugin_default_ff.c:119-142) -/
def Link.relevant (l : Link) : Bool := Lq.relevant l.slq l.lq || Lq.relevant l.snlq l.nlq

/-- `default_lq_ff_handle_lqchange` (lq_plugin_default_ff.c:111-170); the Bool says whether
`olsr_relevant_linkcost_change()` is called -/
def handleChange (links : List Link) : List Link × Bool :=
  let links1 := links.map fun l => if l.relevant then l.update else l
  if links.any Link.relevant then
    (links1.map fun l =>
      if l.slq = 255 ∧ l.snlq = 255 then l
      else if l.slq = l.lq ∧ l.snlq = l.nlq then l
      else l.update, true)
  else (links1, false)

/-! ## The exponential average of etx_fpm -/

/-- `struct default_lq_fpm` (lq_plugin_default_fpm.h) -/
structure Fpm where
  valueLq : Nat
  quickstart : Nat
deriving DecidableEq

/-- `aging_quickstart_new` (lq_plugin_default_fpm.c:107): `(uint32_t)(0.25 * 65535)` -/
abbrev quickNew : Nat := 16383

/-- one `uint32_t` operation: `none` stands for a result that does not fit (it would wrap) -/
def u32 (x : Nat) : Option Nat := if x < 4294967296 then some x else none

/-- `(x + m - 1) / m` (lq_plugin_default_fpm.c:192, 198, 201); a wrap of `x + m` alone would be undone by the `- 1` -/
def divUp (x m : Nat) : Option Nat := (u32 (x + (m - 1))).map fun y => y / m

/-- the averaging step for factor `alphaNew` (lq_plugin_default_fpm.c:190-201); `none` if any intermediate
`uint32_t` wraps or the result does not fit the `uint8_t` it is stored in -/
def average (alphaNew mult : Nat) (v : Nat) (lost : Bool) : Option Nat :=
  (u32 (v * 65535)).bind fun x =>
  (u32 (x / 255 * (65535 - alphaNew))).bind fun x =>
  (divUp x 65535).bind fun value =>
  (if lost then some value
   else (u32 (alphaNew * mult)).bind fun x =>
     (divUp x 65536).bind fun r => u32 (value + r)).bind fun value =>
  (u32 (value * 255)).bind fun x =>
  (divUp x 65535).bind fun out =>
  if out < 256 then some out else none

/-- `default_lq_packet_loss_worker_fpm` (lq_plugin_default_fpm.c:177-205).  `alphaNew` is `aging_factor_new`,
`(uint32_t)(lq_aging * 65535)`; the floating-point product itself is not modelled. -/
def Fpm.step (alphaNew mult : Nat) (s : Fpm) (lost : Bool) : Option Fpm :=
  if s.quickstart < 12 then
    (average quickNew mult s.valueLq lost).map fun v => ⟨v, s.quickstart + 1⟩
  else (average alphaNew mult s.valueLq lost).map fun v => ⟨v, s.quickstart⟩

/-- a sequence of received (`false`) and lost (`true`) HELLOs -/
def Fpm.run (alphaNew mult : Nat) : Fpm → List Bool → Option Fpm
  | s, [] => some s
  | s, l :: ls => (s.step alphaNew mult l).bind fun s' => s'.run alphaNew mult ls

end Verif.Lq
