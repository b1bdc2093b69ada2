import Verif.IpcalcModel

/-!
# Model of `lib/filtergw/src/olsrd_filtergw.c` and of the order in which the HNA parse functions run

A message is given by the bytes of the receive buffer from its first byte to the end of the packet (each
below 256).  `none` is an access outside of these bytes, or any other undefined behaviour.  Left out: the
debugging output and the failure of an allocation (which ends the daemon).
-/

namespace Verif.Fgw

/-- `olsr_cnf->ipsize` for the IP version. -/
def ipsz (v6 : Bool) : Nat := if v6 then 16 else 4

/-- `pkt_get_ipaddress` (lq_packet.h 181-186) and the other readers: `n` bytes at `i`. -/
def bytes (m : List Nat) (i n : Nat) : Option (List Nat) :=
  if i + n ≤ m.length then some ((m.drop i).take n) else none

/-- `pkt_get_u16` (lq_packet.h 145-150). -/
def get16 (m : List Nat) (i : Nat) : Option Nat :=
  match bytes m i 2 with
  | some [a, b] => some (a * 256 + b)
  | _ => none

/-- `pkt_put_u16` (lq_packet.h 241-246) into bytes `i` and `i + 1`. -/
def put16 (m : List Nat) (i v : Nat) : List Nat :=
  m.take i ++ [v / 256 % 256, v % 256] ++ m.drop (i + 2)

/-- `memmove(m + dst, m + src, n)`. -/
def move (m : List Nat) (dst src n : Nat) : Option (List Nat) :=
  if src + n ≤ m.length ∧ dst + n ≤ m.length then some (m.take dst ++ (m.drop src).take n ++ m.drop (dst + n)) else none

/-- `is_prefix_inetgw` (ipcalc.c 264-274) with the prefix length from the mask (olsrd_filtergw.c 222); the
IPv4 comparison (ipcalc.h 209-213) is written over the bytes. -/
def isGw (v6 : Bool) (addr mask : List Nat) : Bool :=
  if v6 then Ipcalc.isInetGw6 addr (Ipcalc.toPrefix mask) else Ipcalc.toPrefix mask == 0 && addr == [0, 0, 0, 0]

/-- The plugin: `is_allowlist` and the originators of the one filter group (NULL before the first one),
olsrd_filtergw.c 68-83. -/
structure Conf where
  allow : Int
  group : Option (List (List Nat))
deriving DecidableEq, Repr

/-- At start (olsrd_filtergw.c 68, 83). -/
def conf0 : Conf := { allow := 0, group := none }

/-- The plugin parameters: `originator` with an address that `inet_pton` reads or one that it does not read,
and `allowlist`. -/
inductive Param where
  | originator (a : List Nat)
  | bogus
  | allowlist (n : Int)
deriving DecidableEq, Repr

/-- `set_plugin_filter` (olsrd_filtergw.c 114-138) and `set_plugin_int`; the result is false if an error is
returned. -/
def setParam (c : Conf) : Param → Conf × Bool
  | .originator a => ({ c with group := some (a :: c.group.getD []) }, true)
  | .bogus => (c, false)
  | .allowlist n => ({ c with allow := n }, true)

/-- The parameters in their order. -/
def setParams (c : Conf) : List Param → Conf
  | [] => c
  | p :: ps => setParams (setParam c p).1 ps

/-- `should_filter` (olsrd_filtergw.c 290-307). -/
def shouldFilter (c : Conf) (o : List Nat) : Bool :=
  match c.group with
  | none => c.allow != 0
  | some l => if c.allow != 0 then !(l.contains o) else l.contains o

/-- The loop of `olsrd_filtergw_parser` (olsrd_filtergw.c 216-242): `curr`, `curr_hna` and `curr_end` as offsets
into the message, `left` is `hnasize`, `size` is `olsr_msgsize`.  The first argument bounds the number of
iterations. -/
def loop (v6 : Bool) : Nat → List Nat → Nat → Nat → Nat → Int → Nat → Option (Bool × List Nat)
  | 0, _, _, _, _, _, _ => none
  | fuel + 1, m, curr, hna, end_, left, size =>
    if curr < end_ then
      match bytes m curr (ipsz v6), bytes m (curr + ipsz v6) (ipsz v6) with
      | some a, some k =>
        if isGw v6 a k then
          if 0 < left - 2 * (ipsz v6 : Int) then
            if curr + 2 * ipsz v6 ≤ end_ then
              match move m hna (curr + 2 * ipsz v6) (end_ - (curr + 2 * ipsz v6)) with
              | some m1 =>
                loop v6 fuel (put16 m1 2 (size - 2 * ipsz v6)) hna hna (end_ - 2 * ipsz v6) (left - 2 * (ipsz v6 : Int))
                  (size - 2 * ipsz v6)
              | none => none
            else none
          else some (false, m)
        else loop v6 fuel m (curr + 2 * ipsz v6) (hna + 2 * ipsz v6) end_ left size
      | _, _ => none
    else some (true, m)

/-- `olsrd_filtergw_parser` (olsrd_filtergw.c 151-244): the answer and the message as it is afterwards.  The
remainder of `hnasize` is taken in `size_t`, of which `2 * ipsize` is a divisor. -/
def filter (v6 : Bool) (c : Conf) (m : List Nat) : Option (Bool × List Nat) :=
  match bytes m 0 1, get16 m 2, bytes m 4 (ipsz v6) with
  | some ty, some size, some orig =>
    if ty = [4] then
      if shouldFilter c orig then
        if m.length < 8 + ipsz v6 then none
        else if ((size : Int) - 8 - ipsz v6) % (2 * (ipsz v6 : Int)) ≠ 0 then some (false, m)
        else loop v6 (size + 1) m (8 + ipsz v6) (8 + ipsz v6) size ((size : Int) - 8 - ipsz v6) size
      else some (true, m)
    else some (false, m)
  | _, _, _ => none

/-- The loop of `olsr_input_hna` (hna_set.c 436-446): the entries, address and mask, that are looked at. -/
def readLoop (v6 : Bool) : Nat → List Nat → Nat → Nat → Option (List (List Nat × List Nat))
  | 0, _, _, _ => none
  | fuel + 1, m, curr, end_ =>
    if curr < end_ then
      match bytes m curr (ipsz v6), bytes m (curr + ipsz v6) (ipsz v6) with
      | some a, some k => (readLoop v6 fuel m (curr + 2 * ipsz v6) end_).map (fun l => (a, k) :: l)
      | _, _ => none
    else some []

/-- `olsr_input_hna` (hna_set.c 368-508): the answer and the entries that are processed; `sym`: the message came
over a symmetric link.  What is done with an entry (gateway table, HNA set) is left out. -/
def core (v6 sym : Bool) (m : List Nat) : Option (Bool × List (List Nat × List Nat)) :=
  match bytes m 0 1, get16 m 2 with
  | some ty, some size =>
    if ty = [4] then
      if m.length < 8 + ipsz v6 then none
      else if ((size : Int) - 8 - ipsz v6) % (2 * (ipsz v6 : Int)) ≠ 0 then some (false, [])
      else if sym then (readLoop v6 (size + 1) m (8 + ipsz v6) size).map (fun l => (true, l))
      else some (false, [])
    else some (false, [])
  | _, _ => none

/-- The two functions registered for `HNA_MESSAGE`. -/
inductive Fn where
  | filter
  | core
deriving DecidableEq, Repr

/-- `olsr_parser_add_function` (parser.c 121-139): at the head. -/
def addFunction (l : List Fn) (f : Fn) : List Fn := f :: l

/-- `olsr_init_parser` (main.c 612, process_package.c) comes before `olsr_load_plugins` (main.c 704). -/
def registered : List Fn := addFunction (addFunction [] .core) .filter

/-- What comes of a message: the bytes afterwards, what `olsr_input_hna` processed, and whether the message goes
to `olsr_forward_message`. -/
structure Outcome where
  m : List Nat
  learned : List (List Nat × List Nat)
  forward : Bool
deriving DecidableEq, Repr

/-- One parse function (parser.c 396-399). -/
def call (v6 sym : Bool) (c : Conf) (o : Outcome) : Fn → Option Outcome
  | .filter => (filter v6 c o.m).map (fun r => { o with m := r.2, forward := o.forward && r.1 })
  | .core => (core v6 sym o.m).map (fun r => { o with learned := o.learned ++ r.2, forward := o.forward && r.1 })

/-- The loop over the parse functions for a message of type `HNA_MESSAGE` (parser.c 391-405). -/
def dispatch (v6 sym : Bool) (c : Conf) : List Fn → Outcome → Option Outcome
  | [], o => some o
  | f :: fs, o => (call v6 sym c o f).bind (dispatch v6 sym c fs)

/-- A message is parsed. -/
def input (v6 sym : Bool) (c : Conf) (m : List Nat) : Option Outcome :=
  dispatch v6 sym c registered { m := m, learned := [], forward := true }

/-- `olsrd_plugin_fini` (olsrd_filtergw.c 266-279): the group is freed, `filter_groups` still points to it, and
the outer loop reads through it again. -/
def fini (c : Conf) : Option Unit :=
  match c.group with
  | none => some ()
  | some _ => none

end Verif.Fgw
