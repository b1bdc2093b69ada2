import Verif.IpcalcModel

/-!
# The network statements of the configuration file (`src/cfgparser/oparse.y`) and the IPC front end

`IpVersion`, the entries of `Hna4 { … }` and `Hna6 { … }`, and the `Host` and `Net` entries of
`IpcConnect { … }`, in the order in which the file has them.  An address token is given by what
`inet_pton` makes of it: its bytes in network order, or `none` if it is refused.  An integer token is
given by its digits (`{DECDIGIT}+`, oscan.lex:145, 248).

Simplifications: `malloc` does not fail; `long` has 64 bits; all other statements are left out, they
touch none of these fields.  Of the union `olsr_ip_addr` only the bytes that were written are kept, so
the address of an IPv4 entry has 4 bytes and the rest of the union is indeterminate.
-/

namespace Verif.HnaConf

open Verif.Ipcalc

/-! ### Integer tokens -/

/-- `strtol` in base 8 (leading `0`): stops at the first digit that is not octal -/
def octal : Nat → List Nat → Nat
  | acc, [] => acc
  | acc, d :: ds => if d < 8 then octal (acc * 8 + d) ds else acc

/-- `strtol` in base 10 -/
def decimal : Nat → List Nat → Nat
  | acc, [] => acc
  | acc, d :: ds => decimal (acc * 10 + d) ds

/-- `strtol(s, NULL, 0)` (oscan.lex:113) before the limit: a leading `0` selects base 8 -/
def strtol0 : List Nat → Nat
  | [] => 0
  | d :: ds => if d = 0 then octal 0 ds else decimal 0 (d :: ds)

/-- `get_integer_token` (oscan.lex:109-116): `strtol` saturates at `LONG_MAX`, the field `integer` is a
`uint32_t` (olsrd_conf.h, `struct conf_token`) -/
def integer (ds : List Nat) : Nat := min (strtol0 ds) (2 ^ 63 - 1) % 2 ^ 32

/-! ### Statements -/

/-- one statement (oparse.y:842, 890, 924, 960-971, 496, 512, 537) -/
inductive Stmt
  /-- `IpVersion n` -/
  | ipVersion (n : List Nat)
  /-- `Hna4 { a m }` -/
  | hna4Mask (a m : Option (List Nat))
  /-- `Hna4 { a/n }` -/
  | hna4Len (a : Option (List Nat)) (n : List Nat)
  /-- `Hna6 { a n }` and `Hna6 { a/n }` -/
  | hna6 (a : Option (List Nat)) (n : List Nat)
  /-- `IpcConnect { Host a }` -/
  | ipcHost (a : Option (List Nat))
  /-- `IpcConnect { Net a m }` -/
  | ipcMask (a m : Option (List Nat))
  /-- `IpcConnect { Net a/n }` -/
  | ipcLen (a : Option (List Nat)) (n : List Nat)
deriving DecidableEq, Repr

/-- an entry of `struct ip_prefix_list` (olsrd_conf.h): address bytes and prefix length -/
structure Net where
  addr : List Nat
  len : Nat
deriving DecidableEq, Repr

/-- the fields of `struct olsrd_config` these statements set -/
structure Conf where
  /-- `ip_version == AF_INET6`; `ipsize` and `maxplen` follow it -/
  v6 : Bool := false
  hna : List Net := []
  ipc : List Net := []
  /-- `has_ipv4_gateway` -/
  gw4 : Bool := false
  /-- `has_ipv6_gateway` -/
  gw6 : Bool := false
deriving DecidableEq, Repr

/-- `maxplen` (oparse.y:847, 851; `set_default_cnf` olsrd_conf.c) -/
def maxplen (c : Conf) : Nat := if c.v6 then 128 else 32

/-- the first four bytes of an address as a word in host byte order -/
def word (a : List Nat) : BitVec 32 :=
  BitVec.ofNat 32 (a.getD 0 0 * 16777216 + a.getD 1 0 * 65536 + a.getD 2 0 * 256 + a.getD 3 0)

/-- `update_has_gateway_fields` (olsrd_conf.c:1449-1459); always scans `hna_entries` -/
def updateGw (c : Conf) : Conf :=
  { c with
    gw4 := c.hna.any fun h => isV4InetGw (word h.addr) h.len || isMapped4InetGw h.addr h.len
    gw6 := c.hna.any fun h => isV6InetGw h.addr h.len }

/-- `ip_prefix_list_add(&olsr_cnf->hna_entries, …)` (olsrd_conf.c:1462-1476): puts the entry first; the
length is passed as `uint8_t` -/
def addHna (c : Conf) (a : List Nat) (n : Nat) : Conf := updateGw { c with hna := ⟨a, n % 256⟩ :: c.hna }

/-- `ip_prefix_list_add(&olsr_cnf->ipc_nets, …)` -/
def addIpc (c : Conf) (a : List Nat) (n : Nat) : Conf := updateGw { c with ipc := ⟨a, n % 256⟩ :: c.ipc }

/-- `(ipaddr.v4.s_addr & ~netmask.v4.s_addr) != 0` (oparse.y:911, 946), byte by byte -/
def hostBits : List Nat → List Nat → Bool
  | x :: a, y :: m => decide (x &&& (255 - y) ≠ 0) || hostBits a m
  | _, _ => false

/-- `ihna4entry`, address and mask (oparse.y:890-923); `none`: `YYABORT`, the file is refused -/
def hna4Mask (c : Conf) (a m : Option (List Nat)) : Option Conf :=
  if c.v6 then some c                                                     -- :894-897
  else match a, m with
    | some a, some m => if hostBits a m then none else some (addHna c a (toPrefix m))
    | _, _ => none                                                        -- :901-908

/-- `ihna4entry`, address and length (oparse.y:924-957); the mask is written into an uninitialised
variable -/
def hna4Len (c : Conf) (a : Option (List Nat)) (n : List Nat) : Option Conf :=
  if c.v6 then some c
  else match a with
    | none => none
    | some a =>
      if integer n > maxplen c then none                                  -- :939-942
      else if hostBits a (prefixToNetmask [0, 0, 0, 0] (integer n)).2 then none
      else some (addHna c a (integer n))

/-- `add_ipv6_addr` (oparse.y:141-170) -/
def hna6 (c : Conf) (a : Option (List Nat)) (n : List Nat) : Option Conf :=
  if c.v6 then
    match a with
    | none => none
    | some a => if integer n > 128 then none else some (addHna c a (integer n))
  else some c                                                             -- :146-149

/-- `iipversion` (oparse.y:842-860) -/
def ipVersion (c : Conf) (n : List Nat) : Option Conf :=
  if integer n = 4 then some { c with v6 := false }
  else if integer n = 6 then some { c with v6 := true }
  else none

/-- `ipchost` (oparse.y:496-510) -/
def ipcHost (c : Conf) (a : Option (List Nat)) : Option Conf :=
  match a with
  | none => none
  | some a => some (addIpc c a (maxplen c))

/-- `ipcnet` with a mask (oparse.y:512-536): `olsr_netmask_to_prefix` reads `ipsize` bytes, of which
only four were written; the outcome is given by them as long as they are not all ones, otherwise the
next (indeterminate) byte is read -/
def ipcMask (c : Conf) (a m : Option (List Nat)) (stack : List Nat) : Option Conf :=
  match a, m with
  | some a, some m => some (addIpc c a (toPrefix (if c.v6 then m ++ stack else m)))
  | _, _ => none

/-- `ipcnet` with a length (oparse.y:537-557) -/
def ipcLen (c : Conf) (a : Option (List Nat)) (n : List Nat) : Option Conf :=
  match a with
  | none => none
  | some a => if integer n > maxplen c then none else some (addIpc c a (integer n))

/-- one statement; `stack` are the indeterminate bytes behind an IPv4 netmask -/
def stmt (stack : List Nat) (c : Conf) : Stmt → Option Conf
  | .ipVersion n => ipVersion c n
  | .hna4Mask a m => hna4Mask c a m
  | .hna4Len a n => hna4Len c a n
  | .hna6 a n => hna6 c a n
  | .ipcHost a => ipcHost c a
  | .ipcMask a m => ipcMask c a m stack
  | .ipcLen a n => ipcLen c a n

/-- a whole file -/
def file (stack : List Nat) : Conf → List Stmt → Option Conf
  | c, [] => some c
  | c, s :: ss =>
    match stmt stack c s with
    | none => none
    | some c' => file stack c' ss

/-! ### The IPC front end (`src/ipc_frontend.c`) -/

/-- `ip_in_net` (ipcalc.c:237-262) for the IPv4 address of a peer.  With IPv6 the comparison goes on
behind the four bytes of both addresses when the prefix is longer than 32: `none` if it gets there. -/
def inNet (v6 : Bool) (peer : BitVec 32) (n : Net) : Option Bool :=
  if v6 then
    if n.len > 32 then (if peer ≠ word n.addr then some false else none)
    else inNet4 peer (word n.addr) n.len
  else inNet4 peer (word n.addr) n.len

/-- the loop of `ipc_check_allowed_ip` (ipc_frontend.c:181-185) -/
def anyNet (v6 : Bool) (peer : BitVec 32) : List Net → Option Bool
  | [] => some false
  | n :: ns =>
    match inNet v6 peer n with
    | none => none
    | some true => some true
    | some false => anyNet v6 peer ns

/-- `ipc_check_allowed_ip` (ipc_frontend.c:171-188), addresses in host byte order; 127.0.0.1 is always
allowed -/
def allowed (c : Conf) (peer : BitVec 32) : Option Bool :=
  if peer = 0x7F000001#32 then some true else anyNet c.v6 peer c.ipc

/-- the front-end connection: `ipc_conn` (`none` = -1, after `CLOSE`), `ipc_active`, and ghost fields:
what was sent to which socket, and the sockets closed by us -/
structure Ipc where
  conn : Option Nat := none
  active : Bool := false
  sent : List (Option Nat) := []
  closed : List Nat := []
deriving DecidableEq, Repr

/-- events: a connection accepted as socket `fd` from a peer for which `ipc_check_allowed_ip` says `ok`;
and a message or route for the front end, where `up` tells if the peer still takes data -/
inductive Ev
  | accept (fd : Nat) (ok : Bool)
  | send (up : Bool)
deriving DecidableEq, Repr

/-- `ipc_accept` (ipc_frontend.c:139-169): `ipc_conn` is overwritten before the check; `CLOSE` sets it
to -1; the three writes of network data and routes are one -/
def accept (s : Ipc) (fd : Nat) (ok : Bool) : Ipc :=
  if ok then { s with conn := some fd, active := true, sent := some fd :: s.sent }
  else { s with conn := none, closed := fd :: s.closed }

/-- `close` as recorded -/
def closeConn (l : List Nat) : Option Nat → List Nat
  | none => l
  | some fd => fd :: l

/-- `frontend_msgparser` (ipc_frontend.c:199-220) and `ipc_route_send_rtentry` (:233-285): nothing
without `ipc_active`; a failed `send` (always on -1) closes the socket and ends the connection -/
def send (s : Ipc) (up : Bool) : Ipc :=
  if s.active then
    if up && s.conn.isSome then { s with sent := s.conn :: s.sent }
    else { s with conn := none, active := false, closed := closeConn s.closed s.conn }
  else s

/-- one event -/
def step (s : Ipc) : Ev → Ipc
  | .accept fd ok => accept s fd ok
  | .send up => send s up

end Verif.HnaConf
