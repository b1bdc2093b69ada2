/-!
# Model of `src/ipcalc.c`

Addresses and netmasks in network byte order are lists of bytes (`Nat` below 256), 4 or 16 of them.
`none` stands for undefined behaviour: a shift by a negative or too large count, or a read past the
end of an address.
-/

namespace Verif.Ipcalc

/-- `prefix_to_netmask` (ipcalc.c:82-115) on a buffer with old contents `a`; result: return value and
new contents.  `p` is an `int` in 0..8 when the last byte is computed, the conversion to `uint8_t`
truncates. -/
def prefixToNetmask : List Nat → Nat → Nat × List Nat
  | [], _ => (0, [])                                                  -- :93-95, :101-103
  | _ :: rest, p =>
    if p > 8 then                                                     -- :98-100
      let r := prefixToNetmask rest (p - 8)
      (r.1, 255 :: r.2)
    else (1, (255 * 2 ^ (8 - p)) % 256 :: rest.map (fun _ => 0))      -- :104-107, :113

/-- the `switch` on the first byte that is not 0xff (ipcalc.c:129-160); `none`: bogus netmask -/
def lastByte (b : Nat) : Option Nat :=
  if b = 0 then some 0
  else if b = 128 then some 1
  else if b = 192 then some 2
  else if b = 224 then some 3
  else if b = 240 then some 4
  else if b = 248 then some 5
  else if b = 252 then some 6
  else if b = 254 then some 7
  else if b = 255 then some 8
  else none

/-- `netmask_to_prefix` (ipcalc.c:117-166); `prefix` is the `uint16_t` counter, the result is
truncated to `uint8_t`; `UCHAR_MAX` = 255 marks a bogus mask -/
def netmaskToPrefix : List Nat → Nat → Nat
  | [], prefix_ => prefix_ % 256
  | b :: rest, prefix_ =>
    if b = 255 then netmaskToPrefix rest ((prefix_ + 8) % 65536)
    else match lastByte b with
      | some k => (prefix_ + k) % 65536 % 256
      | none => 255

/-- `olsr_netmask_to_prefix` (ipcalc.h:120-124) -/
def toPrefix (m : List Nat) : Nat := netmaskToPrefix m 0

/-- `prefix_to_netmask4` (ipcalc.c:226-230): shifting by a negative count (prefix length above 32) is
undefined -/
def netmask4 (plen : Nat) : Option (BitVec 32) :=
  if plen = 0 then some 0#32
  else if plen ≤ 32 then some (BitVec.allOnes 32 <<< (32 - plen))
  else none

/-- the IPv4 branch of `ip_in_net` (ipcalc.c:240-242).  Addresses are given in host byte order; the
common `htonl` of both sides does not matter for the comparison. -/
def inNet4 (ip net : BitVec 32) (plen : Nat) : Option Bool :=
  (netmask4 plen).map fun m => (ip &&& m) == (net &&& m)

/-- the IPv6 branch of `ip_in_net` (ipcalc.c:243-260): addresses as lists of 32-bit words; reading
past the end is `none` -/
def inNet6 : List (BitVec 32) → List (BitVec 32) → Nat → Option Bool
  | i :: is, n :: ns, plen =>
    if plen > 32 then                                        -- :250-256
      if i ≠ n then some false else inNet6 is ns (plen - 32)
    else inNet4 i n plen                                     -- :258-259
  | _, _, _ => none

/-- `ip_prefix_is_v4_inetgw` (ipcalc.h:209-213) -/
def isV4InetGw (addr : BitVec 32) (plen : Nat) : Bool := plen == 0 && addr == 0#32

/-- `ip_prefix_is_v6_inetgw` (ipcalc.h:215-219): `ipv6_internet_route` is 2000::/3; `memcmp` compares
`3/8 = 0` bytes -/
def isV6InetGw (addr : List Nat) (plen : Nat) : Bool :=
  plen == 3 && addr.take (3 / 8) == [0x20, 0, 0, 0, 0, 0, 0, 0, 0, 0, 0, 0, 0, 0, 0, 0].take (3 / 8)

/-- `ip_prefix_is_mappedv4_inetgw` (ipcalc.h:203-207): `::ffff:0:0/96` -/
def isMapped4InetGw (addr : List Nat) (plen : Nat) : Bool :=
  plen == 96 && addr.take (96 / 8) == [0, 0, 0, 0, 0, 0, 0, 0, 0, 0, 255, 255, 0, 0, 0, 0].take (96 / 8)

/-- `is_prefix_inetgw` (ipcalc.c:264-274), IPv6 -/
def isInetGw6 (addr : List Nat) (plen : Nat) : Bool := isV6InetGw addr plen || isMapped4InetGw addr plen

end Verif.Ipcalc
