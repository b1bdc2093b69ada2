/-!
# Model of the detection of duplicate nodes (src/duplicate_handler.c, the sequence number in src/olsr.c 126-160)

Addresses and message types are numbers.  The functions of a handler do not change the list of handlers.  `none` is undefined
behaviour: a handler that is added twice or removed without being in the list.
-/

namespace Verif.Collide

/-- The three kinds of collisions, each with its counter (duplicate_handler.c 56). -/
inductive Kind where
  | orig
  | hna
  | mid
deriving DecidableEq, Repr

/-- The number of the next message, the counters, and the handlers from the head of the list. -/
structure State where
  seq : Nat
  cnt : Kind → Nat
  handlers : List Nat

/-- What is seen from outside: a message number that is used, a warning, a notice of skipped warnings, the call of a handler. -/
inductive Ev where
  | sent (n : Nat)
  | warn (k : Kind)
  | skipped (k : Kind) (n : Nat)
  | call (k : Kind) (h a b : Nat)
deriving DecidableEq, Repr

/-- What happens. -/
inductive Op where
  | send
  | orig (msgType seqno : Nat)
  | hna (a b : Nat)
  | mid (a b : Nat)
  | timer
  | add (h : Nat)
  | remove (h : Nat)

/-- `olsr_is_bad_duplicate_msg_seqno` (olsr.c 149-160). -/
def bad (seqno cur : Nat) : Bool :=
  let diff : Int := (seqno : Int) - cur
  let d := if diff < -32768 then diff + 65536 else if diff > 32767 then diff - 65536 else diff
  decide (d > 0)

/-- The end of `olsr_test_originator_collision`, and `olsr_handle_hna_collision`, `olsr_handle_mid_collision`
(duplicate_handler.c 103-115, 117-132, 134-149). -/
def collide (s : State) (k : Kind) (a b : Nat) : State × List Ev :=
  let c := (s.cnt k + 1) % 4294967296
  ({ s with cnt := fun k' => if k' = k then c else s.cnt k' },
    (if c < 10 then [Ev.warn k] else []) ++ s.handlers.map (fun h => Ev.call k h a b))

/-- `handle_duplicate_spam_timer` (duplicate_handler.c 61-74) for one counter. -/
def notice (s : State) (k : Kind) : List Ev := if s.cnt k > 10 then [Ev.skipped k (s.cnt k - 10)] else []

/-- One step: `get_msg_seqno` (olsr.c 143-147), the three collisions, the timer, `olsr_add_duplicate_handler` and
`olsr_remove_duplicate_handler` (duplicate_handler.c 88-94). -/
def step (s : State) : Op → Option (State × List Ev)
  | .send => some ({ s with seq := (s.seq + 1) % 65536 }, [Ev.sent s.seq])
  | .orig t n => if bad n s.seq = true then some (collide s .orig t 0) else some (s, [])
  | .hna a b => some (collide s .hna a b)
  | .mid a b => some (collide s .mid a b)
  | .timer => some ({ s with cnt := fun _ => 0 }, notice s .orig ++ notice s .hna ++ notice s .mid)
  | .add h => if h ∈ s.handlers then none else some ({ s with handlers := s.handlers ++ [h] }, [])
  | .remove h => if h ∈ s.handlers then some ({ s with handlers := s.handlers.erase h }, []) else none

/-- Steps one after the other, with all that is seen. -/
def run : State → List Op → Option (State × List Ev)
  | s, [] => some (s, [])
  | s, o :: os =>
    match step s o with
    | none => none
    | some (s1, e1) =>
      match run s1 os with
      | none => none
      | some (s2, e2) => some (s2, e1 ++ e2)

/-- `olsr_duplicate_handler_init` (duplicate_handler.c 77-86) and `init_msg_seqno` (olsr.c 132-136). -/
def init (r : Nat) : State := ⟨r % 65536, fun _ => 0, []⟩

end Verif.Collide
