/-!
# Model of the lock file (src/lock_file.c, and its callers src/main.c 332 and 697-701)

Several daemons with the same, not empty, name of the lock file; the branch for Windows is left out.  The file system is the
inode that the name stands for, and the owner of the lock of each inode; every system call is one step, in any order between
the daemons.  `remove` succeeds if there is a file.
-/

namespace Verif.Lock

/-- Where a daemon is: `left` is the loop variable `i` of `olsr_create_lock_file` (lock_file.c 156-165). -/
inductive Pc where
  /-- not started, or given up -/
  | off
  /-- before `open` (lock_file.c 126) -/
  | opening (left : Nat)
  /-- before `fcntl` (lock_file.c 139) -/
  | locking (left : Nat)
  /-- in `olsr_remove_lock_file` after a failure, before `close` (lock_file.c 177-180) -/
  | closing (left : Nat)
  /-- before `remove` (lock_file.c 187) -/
  | removing (left : Nat)
  /-- `olsr_create_lock_file` has returned true -/
  | running
  /-- in `olsr_remove_lock_file` at the end (main.c 332), before `close` -/
  | leaving
  /-- before `remove` -/
  | unlinking
deriving DecidableEq, Repr

/-- The daemons and the file system; `emul` is `olsr_cnf->host_emul`, `fd` the inode of `lock_fd`. -/
structure Sys where
  path : Option Nat
  next : Nat
  owner : Nat → Option Nat
  fd : Nat → Option Nat
  pc : Nat → Pc
  emul : Nat → Bool

/-- An entry of a table is changed. -/
def upd {α : Type} (f : Nat → α) (p : Nat) (v : α) : Nat → α := fun q => if q = p then v else f q

/-- `close` of the file of `p`: its lock is gone (fcntl(2)). -/
def release (s : Sys) (p : Nat) : Sys :=
  { s with owner := fun i => if s.owner i = some p then none else s.owner i, fd := upd s.fd p none }

/-- `open` with `O_CREAT` (lock_file.c 126). -/
def openFile (s : Sys) (p k : Nat) : Sys :=
  match s.path with
  | some i => { s with fd := upd s.fd p (some i), pc := upd s.pc p (.locking k) }
  | none => { s with path := some s.next, next := s.next + 1, fd := upd s.fd p (some s.next), pc := upd s.pc p (.locking k) }

/-- `fcntl` with `F_SETLK` (lock_file.c 139-142). -/
def lockFile (s : Sys) (p k : Nat) : Sys :=
  match s.fd p with
  | some i =>
    if s.owner i = none ∨ s.owner i = some p then
      { s with owner := upd s.owner i (some p), pc := upd s.pc p .running }
    else { s with pc := upd s.pc p (.closing k) }
  | none => { s with pc := upd s.pc p (.closing k) }

/-- The next system call of a daemon (lock_file.c 98-188). -/
def step (s : Sys) (p : Nat) : Sys :=
  match s.pc p with
  | .off => s
  | .opening k => openFile s p k
  | .locking k => lockFile s p k
  | .closing k => { release s p with pc := upd s.pc p (.removing k) }
  | .removing k => { s with path := none, pc := upd s.pc p (if k = 0 then .off else .opening (k - 1)) }
  | .running => s
  | .leaving => { release s p with pc := upd s.pc p .unlinking }
  | .unlinking => { s with path := none, pc := upd s.pc p .off }

/-- What may happen. -/
inductive Ev where
  /-- `olsr_create_lock_file` is called (main.c 697) -/
  | start (p : Nat)
  /-- the next system call -/
  | step (p : Nat)
  /-- the next system call is an `open` that fails (lock_file.c 127-130) -/
  | openFails (p : Nat)
  /-- a daemon ends (main.c 332) -/
  | exit (p : Nat)
  /-- a daemon is killed -/
  | kill (p : Nat)
deriving DecidableEq, Repr

/-- What it does; the start is lock_file.c 148-156. -/
def ev (s : Sys) : Ev → Sys
  | .start p => if s.pc p = .off then { s with pc := upd s.pc p (if s.emul p = false then .running else .opening 5) } else s
  | .step p => step s p
  | .openFails p =>
    match s.pc p with
    | .opening k => { s with pc := upd s.pc p (.removing k) }
    | _ => s
  | .exit p => if s.pc p = .running then { s with pc := upd s.pc p .leaving } else s
  | .kill p => { release s p with pc := upd s.pc p .off }

/-- A sequence of events. -/
def run (s : Sys) : List Ev → Sys
  | [] => s
  | e :: es => run (ev s e) es

/-- Nothing is started, there is no file. -/
def init (emul : Nat → Bool) : Sys := ⟨none, 0, fun _ => none, fun _ => none, fun _ => .off, emul⟩

end Verif.Lock
