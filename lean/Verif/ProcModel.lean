/-!
# Model of the kernel settings that the daemon changes and restores: `src/linux/net.c`

Files under /proc/sys/net with one character each. The devices come and go; the daemon brings
interfaces up (`chk_if_up`, src/unix/ifnet.c:655) and removes them (`olsr_remove_interface`,
src/interfaces.c:379-440). That writing one file changes others in the kernel is not modelled.
-/

namespace Verif.Proc

/-- The files: forwarding, the two global settings, the spoof filter of the tunnel device, and the
two settings of a device (src/linux/net.c:83-93). -/
inductive Key
  | fwd | redirect | spoof | tunnel
  | devRedirect (n : Nat) | devSpoof (n : Nat)
  deriving DecidableEq, Repr

/-- Contents of the files; `none` is a file that does not exist. -/
abbrev Files := Key → Option Nat

/-- The configuration: `ip_version == AF_INET`, `set_ip_forward`, `smart_gw_active`, `use_niit`,
and the test of the kernel version (src/linux/net.c:183-217, 224-268). -/
structure Cfg where
  v4 : Bool
  setFwd : Bool
  smart : Bool
  niit : Bool
  new : Bool

/-- An interface in `ifnet` with the base name of its device (`int_name`, which several alias interfaces
share) and its `nic_state` (src/interfaces.h:156-163). 0 is the state of cleared memory. -/
structure If where
  name : Nat
  redirect : Nat
  spoof : Nat
  deriving DecidableEq, Repr

/-- The state; `orig*` are the static variables (src/linux/net.c:111-114). -/
structure St where
  files : Files
  oFwd : Nat
  oRedirect : Nat
  oSpoof : Nat
  oTunnel : Nat
  ifs : List If

/-- Sets one file. -/
def set (f : Files) (k : Key) (v : Option Nat) : Files := fun k' => if k' = k then v else f k'

/-- `writeToProc` (src/linux/net.c:135-175): the files afterwards. `ok` is false if one of the system
calls fails; that a file does not exist makes `open` fail. -/
def wr (f : Files) (k : Key) (value : Nat) (ok : Bool) : Files :=
  match f k with
  | none => f
  | some rv => if ok = true ∧ rv ≠ value ∧ value ≠ 0 then set f k (some value) else f

/-- `writeToProc`: the old value, if it is delivered (src/linux/net.c:163-165); otherwise the variable
keeps its value `d`. -/
def old (f : Files) (k : Key) (ok : Bool) (d : Nat) : Nat :=
  match f k with
  | none => d
  | some rv => if ok then rv else d

/-- `writeToProc` returns 0. -/
def succ (f : Files) (k : Key) (ok : Bool) : Bool := (f k).isSome && ok

/-- `restoreProc` (src/linux/net.c:178-181). -/
def restore (f : Files) (k : Key) (original value : Nat) (ok : Bool) : Files :=
  if original = value then f else wr f k original ok

/-- The character '1' of `OLSRD_FORWARD_VALUE` (src/linux/net.c:99). -/
def one : Nat := 49

/-- The character '0' of `OLSRD_REDIRECT_VALUE` and `OLSRD_SPOOF_VALUE` (src/linux/net.c:100-101). -/
def zero : Nat := 48

/-- Forwarding at the start (src/linux/net.c:226-234). That the daemon exits if forwarding is off and
may not be set is not modelled. -/
def startFwd (c : Cfg) (ok : Key → Bool) (s : St) : St :=
  { s with
    files := wr s.files .fwd (if c.setFwd then one else 0) (ok .fwd)
    oFwd := old s.files .fwd (ok .fwd) s.oFwd }

/-- The tunnel at the start (src/linux/net.c:236-249). -/
def startTunnel (c : Cfg) (ok : Key → Bool) (s : St) : St :=
  if c.smart = true ∧ (c.v4 = true ∨ c.niit = true) then
    { s with
      files := wr s.files .tunnel zero (ok .tunnel)
      oTunnel := old s.files .tunnel (ok .tunnel) s.oTunnel }
  else s

/-- Global redirects at the start (src/linux/net.c:251-257). -/
def startRedirect (c : Cfg) (ok : Key → Bool) (s : St) : St :=
  if c.v4 = true then
    { s with
      files := wr s.files .redirect zero (ok .redirect)
      oRedirect := old s.files .redirect (ok .redirect) s.oRedirect }
  else s

/-- Global spoof filter at the start (src/linux/net.c:259-268). -/
def startSpoof (c : Cfg) (ok : Key → Bool) (s : St) : St :=
  if c.v4 = true ∧ c.new = true then
    { s with
      files := wr s.files .spoof zero (ok .spoof)
      oSpoof := old s.files .spoof (ok .spoof) s.oSpoof }
  else s

/-- `net_os_set_global_ifoptions` (src/linux/net.c:223-270). -/
def start (c : Cfg) (ok : Key → Bool) (s : St) : St :=
  startSpoof c ok (startRedirect c ok (startTunnel c ok (startFwd c ok s)))

/-- An interface is brought up: `net_os_set_ifoptions` (src/linux/net.c:276-304) into a cleared
structure (src/unix/ifnet.c:535), then the rest of `chk_if_up`, which may fail (`done`), and with it
the structure is lost. -/
def up (c : Cfg) (n : Nat) (ok : Key → Bool) (done : Bool) (s : St) : St :=
  if c.v4 = true then
    if succ s.files (.devRedirect n) (ok (.devRedirect n)) = true then
      { s with
        files := wr (wr s.files (.devRedirect n) zero (ok (.devRedirect n))) (.devSpoof n) zero
          (ok (.devSpoof n))
        ifs := if done then
            { name := n
              redirect := old s.files (.devRedirect n) (ok (.devRedirect n)) 0
              spoof := old s.files (.devSpoof n) (ok (.devSpoof n)) 0 } :: s.ifs
          else s.ifs }
    else
      { s with ifs := if done then { name := n, redirect := 0, spoof := 0 } :: s.ifs else s.ifs }
  else
    { s with ifs := if done then { name := n, redirect := 0, spoof := 0 } :: s.ifs else s.ifs }

/-- `olsr_remove_interface` of the interface at a position of `ifnet`, as far as this is concerned
(src/interfaces.c:379-440). -/
def down (i : Nat) (s : St) : St := { s with ifs := s.ifs.eraseIdx i }

/-- The loop over the interfaces at the end (src/linux/net.c:344-360). -/
def restoreIfs (ok : Key → Bool) : Files → List If → Files
  | f, [] => f
  | f, i :: is =>
    restoreIfs ok
      (restore (restore f (.devRedirect i.name) i.redirect zero (ok (.devRedirect i.name)))
        (.devSpoof i.name) i.spoof zero (ok (.devSpoof i.name))) is

/-- Forwarding at the end (src/linux/net.c:317-322). -/
def stopFwd (c : Cfg) (ok : Key → Bool) (s : St) (f : Files) : Files :=
  if c.setFwd = true then restore f .fwd s.oFwd one (ok .fwd) else f

/-- The tunnel at the end (src/linux/net.c:324-330). -/
def stopTunnel (c : Cfg) (ok : Key → Bool) (s : St) (f : Files) : Files :=
  if c.smart = true ∧ (c.v4 = true ∨ c.niit = true) then
    restore f .tunnel s.oTunnel zero (ok .tunnel)
  else f

/-- Global redirects at the end (src/linux/net.c:332-336). -/
def stopRedirect (c : Cfg) (ok : Key → Bool) (s : St) (f : Files) : Files :=
  if c.v4 = true then restore f .redirect s.oRedirect zero (ok .redirect) else f

/-- Global spoof filter at the end (src/linux/net.c:338-343). -/
def stopSpoof (c : Cfg) (ok : Key → Bool) (s : St) (f : Files) : Files :=
  if c.v4 = true ∧ c.new = true then restore f .spoof s.oSpoof zero (ok .spoof) else f

/-- The interfaces at the end (src/linux/net.c:332, 344-361). -/
def stopIfs (c : Cfg) (ok : Key → Bool) (s : St) (f : Files) : Files :=
  if c.v4 = true then restoreIfs ok f s.ifs else f

/-- `net_os_restore_ifoptions` (src/linux/net.c:309-363). -/
def stop (c : Cfg) (ok : Key → Bool) (s : St) : Files :=
  stopIfs c ok s (stopSpoof c ok s (stopRedirect c ok s (stopTunnel c ok s (stopFwd c ok s s.files))))

/-- What happens while the daemon runs: an interface is brought up, or removed by the daemon; the
kernel makes or removes a device. -/
inductive Ev
  | up (n : Nat) (ok : Key → Bool) (done : Bool)
  | down (i : Nat)
  | appear (n : Nat) (r s : Nat)
  | vanish (n : Nat)

/-- One event. -/
def step (c : Cfg) (s : St) : Ev → St
  | .up n ok done => up c n ok done s
  | .down i => down i s
  | .appear n r sp =>
    { s with files := set (set s.files (.devRedirect n) (some r)) (.devSpoof n) (some sp) }
  | .vanish n => { s with files := set (set s.files (.devRedirect n) none) (.devSpoof n) none }

/-- The state before the start: the static variables are 0. -/
def init (f : Files) : St :=
  { files := f, oFwd := 0, oRedirect := 0, oSpoof := 0, oTunnel := 0, ifs := [] }

/-- The daemon from start to stop (src/main.c:304, 609). -/
def run (c : Cfg) (f : Files) (okStart : Key → Bool) (evs : List Ev) (okStop : Key → Bool) : Files :=
  stop c okStop (evs.foldl (step c) (start c okStart (init f)))

end Verif.Proc
