/-!
# Model of the link quality of wireless stations (src/linux/nl80211_link_info.c, src/linux/lq_plugin_ffeth_nl80211.c)

The arithmetic is the one of the macros of fpm.h 66-86 with 10 bits after the point (`USE_FPM` of Makefile.inc 310) and a `long` of 64
bits; all intermediate numbers are small, so nothing overflows.  The messages of netlink are not modelled.
-/

namespace Verif.Wifi

/-- `bandwidth_to_quality` (nl80211_link_info.c 397-418) for a number of 16 bits, in steps of 100 kbit/s; the result is a `uint8_t`. -/
def bandwidthPenalty (b : Nat) : Nat :=
  if b = 0 then 0
  else
    let fp : Int := Int.tdiv ((b : Int) * 1024) 10
    let ratio := Int.tdiv fp 54
    let penalty := (1024 - ratio) * 255
    (penalty / 1024 % 256).toNat

/-- `signal_quality_table` (nl80211_link_info.c 427-429). -/
def table : List (Int × Nat) := [(-75, 30), (-80, 60), (-85, 120), (-90, 160), (-95, 200), (-100, 255)]

/-- The loop of `signal_to_quality` (nl80211_link_info.c 432-440). -/
def lookup (signal : Int) : List (Int × Nat) → Nat → Nat
  | [], p => p
  | (s, q) :: t, p => if signal ≤ s then lookup signal t q else p

/-- `signal_to_quality` (nl80211_link_info.c 420-443). -/
def signalPenalty (signal : Int) : Nat := lookup signal table 0

/-- `struct lq_ffeth` (lq_plugin_ffeth_nl80211.h 65-72). -/
structure Lq where
  lq : Nat
  nlq : Nat
  bw : Nat
  rssi : Nat
deriving DecidableEq, Repr

/-- What a station tells: the signal is kept in an `int8_t`; an attribute that is absent is `none`. -/
structure Station where
  signal : Option Nat
  bandwidth : Option Nat

/-- `parse_nl80211_message` (nl80211_link_info.c 138-139, 180-192): the variables are not initialised, so an absent attribute is
undefined (the outer `none`); a station with two zeros is left out. -/
def station (s : Station) : Option (Option (Int × Nat)) :=
  match s.signal, s.bandwidth with
  | some g, some b => if b ≠ 0 ∨ g ≠ 0 then some (some (if g < 128 then g else (g : Int) - 256, b)) else some none
  | _, _ => none

/-- The part of `nl80211_link_info_get` for one link (nl80211_link_info.c 467-490): the data of the station, if it is found. -/
def apply (l : Lq) (d : Option (Int × Nat)) : Lq :=
  match d with
  | none => { l with bw := 0, rssi := 0 }
  | some (g, b) => { l with bw := bandwidthPenalty b, rssi := signalPenalty g }

/-- `find_lq_nl80211_data_by_mac` (nl80211_link_info.c 383-395): the first entry with the address. -/
def find (mac : Nat) : List (Nat × Int × Nat) → Option (Int × Nat)
  | [] => none
  | (m, d) :: t => if m = mac then some d else find mac t

/-- `nl80211_link_info_get` (nl80211_link_info.c 445-493) for the links, each with the address of its neighbour if that is known, and the
list of the stations of all interfaces.  If the list is empty nothing is done. -/
def get (links : List (Option Nat × Lq)) (stations : List (Nat × Int × Nat)) : List (Option Nat × Lq) :=
  if stations = [] then links
  else links.map fun x => (x.1, apply x.2 (match x.1 with | none => none | some m => find m stations))

/-- The value between 0 and 255 that the cost is made of (lq_plugin_ffeth_nl80211.c 339-347). -/
def bump (v : Nat) : Nat := if v > 0 ∧ v < 255 then v + 1 else v

/-- `lq_calc_cost_ffeth_nl80211` (lq_plugin_ffeth_nl80211.c 321-366); 25 is `(unsigned int)(255 * MINIMAL_USEFUL_LQ)`, 4194304 is
`LINK_COST_BROKEN`. -/
def cost (l : Lq) : Nat :=
  if l.lq < 25 ∨ l.nlq < 25 then 4194304
  else
    let ether := l.lq = 255 ∧ l.nlq = 255
    let c := 65025 * 1024 / (bump l.lq * bump l.nlq) + (l.bw + l.rssi) * 1024 / 255
    let c' := if ether then c / 10 else c
    if c' > 4194304 then 4194304 else if c' = 0 then 1 else c'

/-- `lq_serialize_hello_lq_pair_ffeth_nl80211` and the same for TC (lq_plugin_ffeth_nl80211.c 368-384, 402-418). -/
def serialize (l : Lq) : List Nat := [l.bw, l.rssi, l.lq, l.nlq]

/-- `lq_deserialize_hello_lq_pair_ffeth_nl80211` and the same for TC (lq_plugin_ffeth_nl80211.c 386-400, 420-434): the rest of the bytes
and the values. -/
def deserialize : List Nat → Option (Lq × List Nat)
  | a :: b :: c :: d :: r => some (⟨c, d, a, b⟩, r)
  | _ => none

end Verif.Wifi
