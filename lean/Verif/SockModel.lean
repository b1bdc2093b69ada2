/-
Model of the sockets of the scheduler (`src/scheduler.c` 219-311, 328-506,
`src/scheduler.h` 130-160).

Handlers are numbers, a null pointer is `none`.  Every entry carries a number
given at its creation, used to tell entries apart; the order of the list is that
of `socket_head`.  New entries go to the end, entries leave the list only at the
end of `handle_fds`, so while the list is walked a node is its position.  What a
handler does to the socket list is given as a list of operations; its other
effects do not matter here.  `olsr_flush_sockets` is not modelled (it is called
at the very end only).
-/
namespace Verif.Sock

/-- `struct olsr_socket_entry` (scheduler.h 139-146) and its number. -/
structure Ent where
  id : Nat
  fd : Nat
  pr : Option Nat
  imm : Option Nat
  data : Nat
  flags : Nat
deriving DecidableEq

/-- What happens to entries. -/
inductive Ev where
  | added (id fd : Nat) (pr imm : Option Nat) (data : Nat)
  | removed (id : Nat)
  | freed (id : Nat)
  | called (id : Nat) (immediate : Bool) (h fd data : Nat) (rd wr : Bool)
deriving DecidableEq

/-- The list, the number of the next entry and what happened so far. -/
structure St where
  ents : List Ent
  next : Nat
  log : List Ev

/-- `socket_head` at the start (scheduler.c 83). -/
def init : St := { ents := [], next := 0, log := [] }

/-- What handlers and other code do; a negative file descriptor is `none`. -/
inductive Op where
  | add (fd : Option Nat) (pr imm : Option Nat) (data flags : Nat)
  | remove (fd : Option Nat) (pr imm : Option Nat)
  | enable (fd : Nat) (pr imm : Option Nat) (flags : Nat)
  | disable (fd : Nat) (pr imm : Option Nat) (flags : Nat)

/-- The comparison of an entry with the arguments (scheduler.c 275, 293, 306). -/
def same (fd : Nat) (pr imm : Option Nat) (e : Ent) : Bool := e.fd = fd && e.imm = imm && e.pr = pr

/-- An entry marked as deleted (scheduler.c 277-279). -/
def kill (e : Ent) : Ent := { e with imm := none, pr := none, flags := 0 }

/-- The loop of `remove_olsr_socket` (scheduler.c 274-283): the list with the
first matching entry marked, and the number of that entry. -/
def removeFirst (fd : Nat) (pr imm : Option Nat) : List Ent → Option (List Ent × Nat)
  | [] => none
  | e :: r =>
    if same fd pr imm e then some (kill e :: r, e.id)
    else (removeFirst fd pr imm r).map fun q => (e :: q.1, q.2)

/-- `add_olsr_socket` (scheduler.c 230-252). -/
def addSocket (fd : Option Nat) (pr imm : Option Nat) (data flags : Nat) (st : St) : St :=
  match fd with
  | none => st
  | some f =>
    if pr = none ∧ imm = none then st
    else
      { ents := st.ents ++ [{ id := st.next, fd := f, pr := pr, imm := imm, data := data, flags := flags }]
        next := st.next + 1
        log := st.log ++ [.added st.next f pr imm data] }

/-- `remove_olsr_socket` (scheduler.c 263-285); the returned value is whether
the log grows. -/
def removeSocket (fd : Option Nat) (pr imm : Option Nat) (st : St) : St :=
  match fd with
  | none => st
  | some f =>
    if pr = none ∧ imm = none then st
    else
      match removeFirst f pr imm st.ents with
      | none => st
      | some (l, id) => { st with ents := l, log := st.log ++ [.removed id] }

/-- `flags |= f` (scheduler.c 294). -/
def orFlags (fd : Nat) (pr imm : Option Nat) (f : Nat) (e : Ent) : Ent :=
  if same fd pr imm e then { e with flags := e.flags ||| f } else e

/-- `flags &= ~f` (scheduler.c 307), on 32 bits. -/
def clearFlags (fd : Nat) (pr imm : Option Nat) (f : Nat) (e : Ent) : Ent :=
  if same fd pr imm e then { e with flags := e.flags &&& ((2 ^ 32 - 1) ^^^ f) } else e

/-- One operation (scheduler.c 230-311). -/
def apply (st : St) : Op → St
  | .add fd pr imm d f => addSocket fd pr imm d f st
  | .remove fd pr imm => removeSocket fd pr imm st
  | .enable fd pr imm f => { st with ents := st.ents.map (orFlags fd pr imm f) }
  | .disable fd pr imm f => { st with ents := st.ents.map (clearFlags fd pr imm f) }

/-- Several operations. -/
def applyAll (ops : List Op) (st : St) : St := ops.foldl apply st

/-- The handler of `poll_sockets` or `handle_fds` (scheduler.c 349, 437). -/
def handler (immediate : Bool) (e : Ent) : Option Nat := if immediate then e.imm else e.pr

/-- `SP_PR_READ`, `SP_IMM_READ` (scheduler.h 130, 133): the number of the bit. -/
def readBit (immediate : Bool) : Nat := if immediate then 2 else 0

/-- `SP_PR_WRITE`, `SP_IMM_WRITE` (scheduler.h 131, 134). -/
def writeBit (immediate : Bool) : Nat := if immediate then 3 else 1

/-- An entry asks for the bit (scheduler.c 348-359, 436-447). -/
def asks (immediate : Bool) (bit : Nat) (e : Ent) : Bool :=
  (handler immediate e).isSome && e.flags.testBit bit

/-- The file descriptor is in the set after `select` found those in `ready`
(scheduler.c 347-370, 435-460).  A set for which nobody asked is not given to
`select` and stays empty. -/
def inSet (immediate : Bool) (bit : Nat) (ready : Nat → Bool) (l : List Ent) (fd : Nat) : Bool :=
  l.any (fun e => asks immediate bit e && e.fd = fd) && ready fd

/-- `FD_SETSIZE`. -/
def setSize : Nat := 1024

/-- All file descriptors fit into the sets. -/
def fits (immediate : Bool) (l : List Ent) : Bool :=
  l.all fun e => !(asks immediate (readBit immediate) e || asks immediate (writeBit immediate) e) || e.fd < setSize

/-- The body of the second loop (scheduler.c 383-395, 471-485) for the entry at
position `i`; `ops` is what the handler does if it is called. -/
def visit (immediate : Bool) (ib ob : Nat → Bool) (ops : List Op) (i : Nat) (st : St) : St :=
  match st.ents[i]? with
  | none => st
  | some e =>
    match handler immediate e with
    | none => st
    | some h =>
      if ib e.fd || ob e.fd then
        applyAll ops { st with log := st.log ++ [.called e.id immediate h e.fd e.data (ib e.fd) (ob e.fd)] }
      else st

/-- The second loop from position `i`.  The next node is read before the body:
after the last entry the loop ends even when its handler added one.  There is
one list of operations for each visited entry; `none` means that there are not
enough of them. -/
def dispatch (immediate : Bool) (ib ob : Nat → Bool) : List (List Op) → Nat → St → Option St
  | [], _, _ => none
  | c :: cs, i, st =>
    if st.ents.length = i + 1 then some (visit immediate ib ob c i st)
    else dispatch immediate ib ob cs (i + 1) (visit immediate ib ob c i st)

/-- What `select` and the handlers do in a round: which file descriptors are
ready to read and write (nothing at all when it fails or times out), and the
operations of the handlers. -/
structure Rnd where
  rd : Nat → Bool
  wr : Nat → Bool
  ops : List (List Op)

/-- One round (scheduler.c 338-397 and 429-487).  `none`: undefined behaviour of
`FD_SET`, or `ops` does not fit. -/
def round (immediate : Bool) (r : Rnd) (st : St) : Option St :=
  match st.ents with
  | [] => some st
  | _ :: _ =>
    if fits immediate st.ents then
      dispatch immediate (inSet immediate (readBit immediate) r.rd st.ents)
        (inSet immediate (writeBit immediate) r.wr st.ents) r.ops 0 st
    else none

/-- An entry marked as deleted (scheduler.c 500). -/
def dead (e : Ent) : Bool := e.imm.isNone && e.pr.isNone

/-- The loop at the end of `handle_fds` (scheduler.c 499-505). -/
def cleanup (st : St) : St :=
  { st with
    ents := st.ents.filter fun e => !dead e
    log := st.log ++ (st.ents.filter dead).map fun e => .freed e.id }

/-- What happens: other code changes the list, `poll_sockets` runs, or
`handle_fds` runs with some rounds. -/
inductive Step where
  | act (o : Op)
  | poll (r : Rnd)
  | handle (rs : List Rnd)

/-- The rounds of `handle_fds` (scheduler.c 428-497). -/
def rounds : List Rnd → St → Option St
  | [], st => some st
  | r :: rs, st =>
    match round true r st with
    | none => none
    | some st' => rounds rs st'

/-- One step of the scheduler. -/
def step (st : St) : Step → Option St
  | .act o => some (apply st o)
  | .poll r => round false r st
  | .handle rs => (rounds rs st).map cleanup

/-- A sequence of steps. -/
def run : List Step → St → Option St
  | [], st => some st
  | s :: ss, st =>
    match step st s with
    | none => none
    | some st' => run ss st'

end Verif.Sock
