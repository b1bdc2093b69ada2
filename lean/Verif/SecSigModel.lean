import Verif.NetbufModel

/-!
# Model of the signatures of the secure plug-in

`add_signature` and `validate_packet` (lib/secure/src/olsrd_secure.c:294-485) on the bytes of
the packet, for the four layouts of `struct s_olsrmsg` (lib/secure/src/secure_messages.h:87-112)
on little-endian machines: `time_t` of four or eight bytes with natural alignment, and digests of
16 (MD5) or 20 (SHA-1, `USE_OPENSSL`) bytes.  The digest is a parameter `H`: any function
from byte lists to lists of the digest's size.  IPv4 only (the structures have
room for four address bytes).
-/

namespace Verif.SecSig

open Verif.Netbuf (write)

/-- `lp64`: `time_t` has eight bytes; `sha`: built with `USE_OPENSSL` -/
structure Layout where
  lp64 : Bool
  sha : Bool
deriving DecidableEq, Repr

/-- `SIGNATURE_SIZE` (olsrd_secure.h:66-70) -/
def Layout.digest (L : Layout) : Nat := if L.sha then 20 else 16

/-- `offsetof(struct s_olsrmsg, sig)`: twelve bytes of header, aligned for `time_t` -/
def Layout.sub (L : Layout) : Nat := if L.lp64 then 16 else 12

/-- offset of `sig.timestamp` -/
def Layout.stamp (L : Layout) : Nat := L.sub + if L.lp64 then 8 else 4

/-- offset of `sig.signature` -/
def Layout.sign (L : Layout) : Nat := L.stamp + if L.lp64 then 8 else 4

/-- `sizeof(struct s_olsrmsg)`: the end of the signature, rounded up to the alignment -/
def Layout.size (L : Layout) : Nat :=
  if L.lp64 then (L.sign + L.digest + 7) / 8 * 8 else (L.sign + L.digest + 3) / 4 * 4

/-- `htons` as stored -/
def be16 (x : Nat) : List Nat := [x / 256 % 256, x % 256]

/-- `htonl` as stored -/
def be32 (x : Nat) : List Nat := [x / 16777216 % 256, x / 65536 % 256, x / 256 % 256, x % 256]

/-- the bytes `[i, j)` of a list -/
def sl (m : List Nat) (i j : Nat) : List Nat := (m.drop i).take (j - i)

/-- `SCHEME` (olsrd_secure.c:80, 98) -/
def Layout.scheme (L : Layout) : Nat := if L.sha then 1 else 2

/-- The signature message as filled in before the digest (olsrd_secure.c:312-326) over the
bytes `old` that were there: padding and the place of the signature keep them.
`htonl(now.tv_sec)` is a 32-bit value assigned to the `time_t`. -/
def message (L : Layout) (orig seq now : Nat) (old : List Nat) : List Nat :=
  [10, 0] ++ be16 L.size ++ be32 orig ++ [1, 0] ++ be16 seq ++ sl old 12 L.sub ++
  [1, L.scheme, 0, 0] ++ sl old (L.sub + 4) L.stamp ++
  be32 now ++ (if L.lp64 then [0, 0, 0, 0] else []) ++ sl old L.sign L.size

/-- `add_signature` (olsrd_secure.c:294-364): `buf` is the output buffer, `size` the number of
pending bytes.  `none`: a write behind the buffer, or behind `checksum_cache` of
`1512 + KEYLENGTH` bytes. -/
def addSignature (L : Layout) (H : List Nat → List Nat) (key : List Nat) (orig seq now : Nat) (buf : List Nat)
    (size : Nat) : Option (List Nat × Nat) :=
  match write buf 0 (be16 (size + L.size)) with
  | none => none
  | some m1 =>
    if m1.length < size + L.size then none
    else
      match write m1 size (message L orig seq now (sl m1 size (size + L.size))) with
      | none => none
      | some m2 =>
        if 1528 < size + L.size - L.digest + key.length then none
        else
          match write m2 (size + L.size - L.digest) (H (m2.take (size + L.size - L.digest) ++ key)) with
          | none => none
          | some m3 => some (m3, size + L.size)

/-- the value of four bytes in network order -/
def rd32 (m : List Nat) (i : Nat) : Nat :=
  m.getD i 0 * 16777216 + m.getD (i + 1) 0 * 65536 + m.getD (i + 2) 0 * 256 + m.getD (i + 3) 0

/-- what `validate_packet` concludes -/
inductive Verdict where
  | reject
  /-- a copy behind the end of `checksum_cache` -/
  | outside
  /-- signature right: originator, timestamp and size without the signature message -/
  | signed (orig stamp size : Nat)
deriving DecidableEq, Repr

/-- `validate_packet` (olsrd_secure.c:366-485) up to the check of the timestamp; the
received datagram is `pck`.  An unknown algorithm only leaves the inner `switch`
(:413-422), so it is not rejected. -/
def validate (L : Layout) (H : List Nat → List Nat) (key pck : List Nat) : Verdict :=
  if pck.length < L.size + 4 then .reject
  else
    let p := pck.length - L.size
    if pck.getD p 0 ≠ 10 ∨ pck.getD (p + 1) 0 ≠ 0 ∨ sl pck (p + 2) (p + 4) ≠ be16 L.size ∨
       pck.getD (p + 8) 0 ≠ 1 ∨ pck.getD (p + 9) 0 ≠ 0 then .reject
    else if pck.getD (p + L.sub) 0 ≠ 1 then .reject
    else if 1528 < pck.length - L.digest + key.length then .outside
    else if H (pck.take (pck.length - L.digest) ++ key) ≠ sl pck (p + L.sign) (p + L.sign + L.digest) then .reject
    else .signed (rd32 pck (p + 4)) (rd32 pck (p + L.stamp)) p

/-- `secure_preprocessor` (olsrd_secure.c:226-251) when the timestamp check passes: the
packet handed to the parser, with the packet length corrected. -/
def strip (pck : List Nat) (size : Nat) : Option (List Nat) :=
  (write pck 0 (be16 size)).map (·.take size)

end Verif.SecSig
