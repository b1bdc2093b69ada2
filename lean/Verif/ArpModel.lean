/-!
# Model of `lib/arprefresh/src/olsrd_arprefresh.c`: the packet filter and the ARP entries

The filter is a program for the classic BPF machine of the kernel; the machine is modelled with the
instructions the program has.  Bytes are `Nat` below 256.

Simplifications: the frame is as the kernel hands it to a packet socket (VLAN tags stripped); the socket
buffer of the kernel does not overflow; `if_indextoname` succeeds, the entry has the interface index
instead of the name.
-/

namespace Verif.Arp

/-- The instructions of classic BPF that occur (olsrd_arprefresh.c:181-197). -/
inductive Ins
  /-- `BPF_LD | BPF_H | BPF_ABS` -/
  | ldH (k : Nat)
  /-- `BPF_LD | BPF_B | BPF_ABS` -/
  | ldB (k : Nat)
  /-- `BPF_LDX | BPF_B | BPF_MSH`: four times the low half of a byte -/
  | ldxMsh (k : Nat)
  /-- `BPF_LD | BPF_H | BPF_IND` -/
  | ldHInd (k : Nat)
  /-- `BPF_JMP | BPF_JEQ | BPF_K` -/
  | jeq (jt jf k : Nat)
  /-- `BPF_JMP | BPF_JSET | BPF_K` -/
  | jset (jt jf k : Nat)
  /-- `BPF_RET | BPF_K` -/
  | ret (k : Nat)
deriving DecidableEq, Repr

/-- a 16-bit load in network byte order; `none` outside of the packet -/
def half (p : List Nat) (k : Nat) : Option Nat :=
  match p[k]?, p[k + 1]? with
  | some a, some b => some (a * 256 + b)
  | _, _ => none

/-- The machine: registers `a` and `x`, the rest of the program (jumps go forward).  A load outside of the
packet ends the program with 0.  The result is `none` if the program ends without `ret` (the kernel refuses
such a program) or the fuel is used up. -/
def run (p : List Nat) : Nat → List Ins → Nat → Nat → Option Nat
  | 0, _, _, _ => none
  | _ + 1, [], _, _ => none
  | n + 1, i :: is, a, x =>
    match i with
    | .ldH k =>
      match half p k with
      | none => some 0
      | some v => run p n is v x
    | .ldB k =>
      match p[k]? with
      | none => some 0
      | some v => run p n is v x
    | .ldxMsh k =>
      match p[k]? with
      | none => some 0
      | some v => run p n is a (4 * (v % 16))
    | .ldHInd k =>
      match half p (x + k) with
      | none => some 0
      | some v => run p n is v x
    | .jeq jt jf k => run p n (is.drop (if a = k then jt else jf)) a x
    | .jset jt jf k => run p n (is.drop (if a &&& k ≠ 0 then jt else jf)) a x
    | .ret k => some k

/-- `BPF_code` (olsrd_arprefresh.c:181-197); `sizeof(arprefresh_buf)` is 14 + 20 + 8 = 42 -/
def prog : List Ins :=
  [.ldH 0xc,
   .jeq 0 8 0x800,
   .ldB 0x17,
   .jeq 0 6 0x11,
   .ldH 0x14,
   .jset 4 0 0x1fff,
   .ldxMsh 0xe,
   .ldHInd 0x10,
   .jeq 0 1 698,
   .ret 42,
   .ret 0]

/-- the filter -/
def filter (p : List Nat) : Option Nat := run p prog.length prog 0 0

/-- an entry set by `SIOCSARP` -/
structure Entry where
  ip : List Nat
  mac : List Nat
  ifindex : Nat
deriving DecidableEq, Repr

/-- the plugin and its socket -/
structure St where
  /-- `arprefresh_sockfd >= 0` -/
  opened : Bool := true
  /-- packets waiting: what is left of the frame, and the interface -/
  queue : List (List Nat × Nat) := []
  /-- the requests made, latest first -/
  made : List Entry := []
deriving DecidableEq, Repr

/-- a frame arrives at the machine: the filter tells how much of it is queued -/
def arrive (s : St) (p : List Nat) (ifindex : Nat) : St :=
  if s.opened then
    match filter p with
    | none => s
    | some 0 => s
    | some n => { s with queue := s.queue ++ [(p.take n, ifindex)] }
  else s

/-- the source address of the IP header and of the Ethernet header (olsrd_arprefresh.c:133, 135) -/
def entryOf (p : List Nat) (ifindex : Nat) : Entry := ⟨(p.drop 26).take 4, (p.drop 6).take 6, ifindex⟩

/-- `olsr_arp_event` (olsrd_arprefresh.c:108-157), every two seconds; `ok`: the `ioctl` succeeds -/
def tick (s : St) (ok : Bool) : St :=
  if s.opened then
    match s.queue with
    | [] => s
    | (p, i) :: q =>
      if p.length ≥ 42 then
        if ok then { s with queue := q, made := entryOf p i :: s.made }
        else { opened := false, queue := [], made := entryOf p i :: s.made }
      else { s with queue := q }
  else s

/-- events -/
inductive Ev
  | frame (p : List Nat) (ifindex : Nat)
  | tick (ok : Bool)
deriving DecidableEq, Repr

/-- one event -/
def step (s : St) : Ev → St
  | .frame p i => arrive s p i
  | .tick ok => tick s ok

end Verif.Arp
