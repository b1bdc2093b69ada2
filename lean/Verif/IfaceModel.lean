/-
Model of the life of the mesh interfaces: /repo/src/unix/ifnet.c `check_interface_updates`
(93-125), `chk_if_changed` (135-356), `chk_if_up` (525-873), /repo/src/interfaces.c
`olsr_remove_interface` (378-440), /repo/src/linux/kernel_routes_nl.c `netlink_process_link`
(118-152), and of the links that refer to them: /repo/src/link_set.c
`olsr_delete_link_entry_by_ip` (407-422), `add_link_entry` (530-640), `lookup_link_entry`
(658-682), /repo/src/lq_packet.c `create_lq_hello` (109-163).

Interfaces are numbered by their place in the configuration.  Not modelled: host emulation,
alias names such as eth0:1 (two entries with one name), metrics, wireless detection, timers
and plugins.  `olsr_exit` and the signal for a failed socket end the daemon at once.
-/
namespace Verif.Iface

/-- The configuration of an interface: `autodetect_chg`, `ipv4_src`, `ipv4_multicast` (the
last two not set if `none`), olsr_cfg.h 214-240. -/
structure Cfg where
  check : Bool
  src : Option Nat
  bcast : Option Nat
deriving DecidableEq, Repr

/-- What the kernel says about an interface: flags, link state, index, and the results of
the requests for address, netmask, broadcast address and MTU (`none`: the request fails);
`recvOk` and `sendOk` are the results of `getsocket`.  With IPv6 the address is the result
of `get_ipv6_address`. -/
structure Dev where
  up : Bool
  carrier : Bool
  broadcast : Bool
  ptp : Bool
  loop : Bool
  idx : Nat
  addr : Option Nat
  mask : Option Nat
  brd : Option Nat
  mtu : Option Nat
  recvOk : Bool
  sendOk : Bool
deriving DecidableEq, Repr

/-- `struct interface_olsr` (interfaces.h 121-190): which allocation it is, the index, the
addresses, the MTU less headers, the size of the buffer (`netbuf.bufsize`), and the address
and the device its sockets were bound to. -/
structure Ifp where
  uid : Nat
  idx : Nat
  addr : Nat
  mask : Nat
  brd : Nat
  mtu : Int
  buf : Int
  sockAddr : Nat
  sockIdx : Nat
deriving DecidableEq, Repr

/-- A link: interface name (as number), `inter`, `local_iface_addr` and
`neighbor_iface_addr`, link_set.h 60-130. -/
structure Link where
  name : Nat
  inter : Nat
  loc : Nat
  remote : Nat
deriving DecidableEq, Repr

/-- Global configuration: IPv6, `allow_no_interfaces`, the interfaces. -/
structure Conf where
  v6 : Bool
  allowNone : Bool
  ifs : List Cfg

/-- `interf` of the interfaces; entries that are still in `ifnet` although the configuration
does not point to them; links; main address (`none`: not set); the next allocation; whether
the daemon has ended. -/
structure St where
  interf : Nat → Option Ifp
  orphans : List Ifp
  links : List Link
  main : Option Nat
  next : Nat
  dead : Bool

/-- The kernel: interface by number, `none` if there is none of that name. -/
abbrev Os := Nat → Option Dev

/-- ifnet.c 168-191, 550-572: link state, flags. -/
def flagsOk (c : Conf) (f : Cfg) (d : Dev) : Bool :=
  d.carrier && d.up && (c.v6 || f.bcast.isSome || d.broadcast || d.ptp) && !d.loop

/-- defs.h 76-77. -/
def hdr (c : Conf) : Int := if c.v6 then 62 else 28

/-- ifnet.c 583-586 (IPv6), 607-622 (IPv4). -/
def addrUp (c : Conf) (f : Cfg) (d : Dev) : Option Nat :=
  if c.v6 then d.addr
  else
    match f.src with
    | some a => some a
    | none => d.addr

/-- Netmask, ifnet.c 624-632; none with IPv6, written 0. -/
def maskUp (c : Conf) (d : Dev) : Option Nat := if c.v6 then some 0 else d.mask

/-- `INADDR_NONE`, ifnet.c 651-653. -/
def fixBrd (b : Nat) : Nat := if b = 0 then 4294967295 else b

/-- Broadcast address, ifnet.c 634-654; none with IPv6, written 0. -/
def brdUp (c : Conf) (f : Cfg) (d : Dev) : Option Nat :=
  if c.v6 then some 0
  else
    match f.bcast with
    | some b => some b
    | none => d.brd.map fixBrd

/-- ifnet.c 675-680. -/
def mtuUp (c : Conf) (d : Dev) : Int := (d.mtu.getD 1500 : Nat) - hdr c

/-- The new entry, ifnet.c 540-680, 761-770. -/
def fresh (c : Conf) (d : Dev) (u a m b : Nat) : Ifp := ⟨u, d.idx, a, m, b, mtuUp c d, mtuUp c d, a, d.idx⟩

def set (g : Nat → Option Ifp) (k : Nat) (v : Option Ifp) : Nat → Option Ifp := fun i => if i = k then v else g i

/-- The entry that the pointer of the configuration leaves behind, ifnet.c 764. -/
def left (s : St) (k : Nat) : List Ifp :=
  match s.interf k with
  | some f => [f]
  | none => []

/-- ifnet.c 761-872: the entry is made; the main address is set if there is none. -/
def install (s : St) (k : Nat) (f : Ifp) : St :=
  { s with
    interf := set s.interf k (some f)
    orphans := left s k ++ s.orphans
    next := s.next + 1
    main := match s.main with | some m => some m | none => some f.addr }

/-- ifnet.c 700-758: both sockets are needed; without the first one the daemon ends. -/
def sockets (s : St) (k : Nat) (d : Dev) (f : Ifp) : St :=
  if d.recvOk = false then { s with dead := true }
  else if d.sendOk = false then s
  else install s k f

/-- `chk_if_up`, ifnet.c 525-873. -/
def chkUp (c : Conf) (f : Cfg) (od : Option Dev) (k : Nat) (s : St) : St :=
  match od with
  | none => s
  | some d =>
    if flagsOk c f d = false then s
    else
      match addrUp c f d, maskUp c d, brdUp c f d with
      | some a, some m, some b => sockets s k d (fresh c d s.next a m b)
      | _, _, _ => s

/-- There is an entry in `ifnet`. -/
def anyIf (c : Conf) (s : St) : Bool := (List.range c.ifs.length).any (fun i => (s.interf i).isSome) || !s.orphans.isEmpty

/-- `olsr_remove_interface`, interfaces.c 378-440, with the links of link_set.c 407-422 that
have the address of the entry. -/
def removeIf (c : Conf) (k : Nat) (p : Ifp) (s : St) : St :=
  let t := { s with interf := set s.interf k none, links := s.links.filter (fun l => decide (l.loc ≠ p.addr)) }
  { t with dead := s.dead || (!anyIf c t && !c.allowNone) }

/-- MTU and index, ifnet.c 202-218; `net_add_buffer`, net_olsr.c 122-145. -/
def refresh (c : Conf) (d : Dev) (p : Ifp) : Ifp :=
  match d.mtu with
  | none => { p with mtu := 0, idx := d.idx }
  | some m =>
    if p.mtu = (m : Nat) - hdr c then { p with idx := d.idx }
    else { p with mtu := (m : Nat) - hdr c, buf := (m : Nat) - hdr c, idx := d.idx }

/-- The broadcast address at a check, ifnet.c 313-341: `none` removes the interface. -/
def brdChk (c : Conf) (f : Cfg) (d : Dev) (p : Ifp) : Option Nat :=
  if c.v6 then some p.brd
  else
    match f.bcast with
    | some _ => some p.brd
    | none => d.brd.map fixBrd

/-- The netmask at a check, ifnet.c 286-311. -/
def maskChk (c : Conf) (d : Dev) (p : Ifp) : Option Nat := if c.v6 then some p.mask else d.mask

/-- `chk_if_changed`, ifnet.c 135-356.  If the address has changed, it is written to the
entry before the entry is removed (ifnet.c 241-248, 274-281). -/
def chkChanged (c : Conf) (f : Cfg) (od : Option Dev) (k : Nat) (p : Ifp) (s : St) : St :=
  match od with
  | none => removeIf c k p s
  | some d =>
    if flagsOk c f d = false then removeIf c k p s
    else
      match d.addr with
      | none => removeIf c k p s
      | some a =>
        if a ≠ p.addr then
          (if (removeIf c k { refresh c d p with addr := a } s).dead = true then removeIf c k { refresh c d p with addr := a } s
           else chkUp c f od k (removeIf c k { refresh c d p with addr := a } s))
        else
          match maskChk c d p, brdChk c f d p with
          | some m, some b => { s with interf := set s.interf k (some { refresh c d p with mask := m, brd := b }) }
          | _, _ => removeIf c k p s

/-- One interface of `check_interface_updates`, ifnet.c 101-122. -/
def poll1 (c : Conf) (os : Os) (s : St) (k : Nat) : St :=
  if s.dead = true then s
  else
    match c.ifs[k]? with
    | none => s
    | some f =>
      if f.check = false then s
      else
        match s.interf k with
        | some p => chkChanged c f (os k) k p s
        | none => chkUp c f (os k) k s

/-- `check_interface_updates`, ifnet.c 93-125. -/
def poll (c : Conf) (os : Os) (s : St) : St := (List.range c.ifs.length).foldl (poll1 c os) s

/-- The first checks, interfaces.c 108-116. -/
def start1 (c : Conf) (os : Os) (s : St) (k : Nat) : St :=
  if s.dead = true then s
  else
    match c.ifs[k]? with
    | none => s
    | some f => chkUp c f (os k) k s

def empty : St := ⟨fun _ => none, [], [], none, 0, false⟩

def start (c : Conf) (os : Os) : St := (List.range c.ifs.length).foldl (start1 c os) empty

/-- The interface with an index, interfaces.c 247-258 (entries left behind excepted). -/
def withIndex (c : Conf) (s : St) (i : Nat) : Option Nat :=
  (List.range c.ifs.length).find? (fun k => match s.interf k with | some p => decide (p.idx = i) | none => false)

/-- The interface whose name the device with an index has, kernel_routes_nl.c 129-136. -/
def ofIndex (c : Conf) (os : Os) (i : Nat) : Option Nat :=
  (List.range c.ifs.length).find? (fun k => match os k with | some d => decide (d.idx = i) | none => false)

/-- A link message for the device with index `i`, which is interface `k` of the
configuration if it has one of its names; `up` as computed in kernel_routes_nl.c 137. -/
def netlink (c : Conf) (os : Os) (i : Nat) (up : Bool) (s : St) : St :=
  if s.dead = true then s
  else
    match withIndex c s i with
    | some k =>
      (match s.interf k with
       | some p => if up = true then s else removeIf c k p s
       | none => s)
    | none =>
      if up = false then s
      else
        match ofIndex c os i with
        | none => s
        | some k =>
          match c.ifs[k]? with
          | none => s
          | some f => chkUp c f (os k) k s

/-- A HELLO from `r` on interface `k`, link_set.c 530-570, 658-682: a link with the name and
the neighbour is used as it is. -/
def hello (k r : Nat) (s : St) : St :=
  match s.interf k with
  | none => s
  | some p =>
    if s.links.any (fun l => decide (l.name = k ∧ l.remote = r)) = true then s
    else { s with links := s.links ++ [⟨k, p.uid, p.addr, r⟩] }

/-- A link times out, link_set.c 368-402. -/
def expire (k r : Nat) (s : St) : St := { s with links := s.links.filter (fun l => decide (¬(l.name = k ∧ l.remote = r))) }

/-- The neighbours with a link type in the HELLO of interface `k`, lq_packet.c 121-128
(packet.c 132 likewise). -/
def announced (k : Nat) (s : St) : List Nat :=
  match s.interf k with
  | none => []
  | some p => (s.links.filter (fun l => decide (l.loc = p.addr))).map (fun l => l.remote)

inductive Ev where
  | poll (os : Os)
  | netlink (os : Os) (i : Nat) (up : Bool)
  | hello (k r : Nat)
  | expire (k r : Nat)

def step (c : Conf) (s : St) : Ev → St
  | .poll os => poll c os s
  | .netlink os i up => netlink c os i up s
  | .hello k r => if s.dead = true then s else hello k r s
  | .expire k r => if s.dead = true then s else expire k r s

def run (c : Conf) (os : Os) (l : List Ev) : St := l.foldl (step c) (start c os)

end Verif.Iface
