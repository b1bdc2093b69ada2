import Verif.SchedTimeModel

/-!
# Model of the timer wheel of `src/scheduler.c`

A timer entry is identified by a number (its address).  The wheel is an array of
lists of timer numbers; list order is kept.  Ghost fields (not in the code):
`tnow` is the true time, never wrapping, of which `now_times` is the remainder
modulo `2^32`; `due` is the true expiry time of a timer; `log` records the
callback invocations.  `now_times` does not change during a timer walk (it is
assigned in `olsr_scheduler`, `poll_sockets` and `handle_fds` only).

Callbacks are arbitrary: `Env.cb` may look at the whole state and returns the
timer operations the callback performs.  Using a timer that was already freed
(a programming error of the caller) sets the flag `ub`.
-/

namespace Verif.Timer

open Verif.SchedTime

/-- `struct timer_entry` (scheduler.h:76-86) -/
structure Timer where
  clock : Nat        -- uint32_t timer_clock
  due : Nat          -- ghost: true expiry time
  period : Nat       -- timer_period, 0 for one-shot timers
  pct : Nat          -- timer_jitter_pct
  random : Nat       -- timer_random
  running : Bool     -- OLSR_TIMER_RUNNING
  removed : Bool     -- OLSR_TIMER_REMOVED
  live : Bool        -- ghost: memory not freed
deriving DecidableEq

/-- memory that is not (any more) a timer -/
def Timer.dead : Timer := ⟨0, 0, 0, 0, 0, false, false, false⟩

/-- a callback invocation: timer, its true expiry time, true time of the invocation -/
structure Fired where
  id : Nat
  due : Nat
  at_ : Nat
deriving DecidableEq

/-- the timer service: `now_times`, `timer_last_run`, `timer_wheel`, and the temporary list
`tmp_head_node` of `walk_timers` -/
structure St where
  tnow : Nat
  lastRun : Nat
  entries : Nat → Timer
  wheel : Nat → List Nat
  tmp : List Nat
  next : Nat                    -- the next fresh address
  log : List Fired              -- ghost, newest first
  ub : Bool                     -- ghost: a freed timer was used

/-- `now_times` -/
def St.now (st : St) : Nat := st.tnow % W

/-- `list_remove(&timer->timer_list)` (list.c:105-111): takes the timer off the list it is on -/
def unlink (st : St) (id : Nat) : St :=
  { st with wheel := fun k => (st.wheel k).filter (· != id), tmp := st.tmp.filter (· != id) }

/-- `list_add_before(&timer_wheel[clock & TIMER_WHEEL_MASK], …)`: append to the slot's list
(`TIMER_WHEEL_SLOTS` = 1024, scheduler.h:61) -/
def addToSlot (st : St) (slot id : Nat) : St :=
  { st with wheel := fun k => if k = slot then st.wheel k ++ [id] else st.wheel k }

def setEntry (st : St) (id : Nat) (t : Timer) : St :=
  { st with entries := fun i => if i = id then t else st.entries i }

/-- true expiry time belonging to a 32-bit time stamp computed now -/
def dueOf (tnow clock : Nat) : Nat := tnow + (clock + W - tnow % W) % W

/-- timer operations available to callbacks and other code -/
inductive CbOp where
  /-- `olsr_start_timer`; `random` is the value `olsr_random()` returns -/
  | start (rel pct : Nat) (periodic : Bool) (random : Nat)
  | stop (id : Nat)
  | change (id rel pct : Nat) (periodic : Bool)
deriving DecidableEq

/-- `olsr_start_timer` (scheduler.c:900-944) -/
def start (st : St) (rel pct : Nat) (periodic : Bool) (random : Nat) : St :=
  let clock := calcJitter st.now rel pct random
  let t : Timer := { clock, due := dueOf st.tnow clock, period := if periodic then rel else 0, pct, random,
                     running := true, removed := false, live := true }
  addToSlot { setEntry st st.next t with next := st.next + 1 } (clock % 1024) st.next

/-- `olsr_stop_timer` (scheduler.c:951-980); the timer is only marked, and freed by `cleanup` -/
def stop (st : St) (id : Nat) : St :=
  let t := st.entries id
  if t.running then setEntry st id { t with running := false, removed := true } else st

/-- `olsr_change_timer` (scheduler.c:1020-1045) -/
def change (st : St) (id rel pct : Nat) (periodic : Bool) : St :=
  let t := st.entries id
  let clock := calcJitter st.now rel pct t.random
  let t := { t with clock, due := dueOf st.tnow clock, period := if periodic then rel else 0, pct }
  addToSlot (unlink (setEntry st id t) id) (clock % 1024) id

/-- one timer operation; on freed memory it is undefined behaviour -/
def cbStep (st : St) : CbOp → St
  | .start rel pct p r => start st rel pct p r
  | .stop id => if (st.entries id).live then stop st id else { st with ub := true }
  | .change id rel pct p => if (st.entries id).live then change st id rel pct p else { st with ub := true }

/-- the environment: what a callback does when invoked for a timer, and `olsr_random()` -/
structure Env where
  cb : St → Nat → List CbOp
  random : St → Nat

/-- ghost: note the callback invocation -/
def record (st : St) (id : Nat) : St := { st with log := ⟨id, (st.entries id).due, st.tnow⟩ :: st.log }

/-- firing one timer (scheduler.c:706-731) -/
def fire (env : Env) (st : St) (id : Nat) : St :=
  let st := record st id
  let st := (env.cb st id).foldl cbStep st                                   -- :712
  let t := st.entries id
  if t.running then
    if t.period ≠ 0 then
      let st := setEntry st id { t with random := env.random st }            -- :722
      change st id t.period t.pct true                                       -- :723
    else stop st id                                                          -- :726
  else st

/-- "dequeue and insert to a temporary list" (scheduler.c:687-693) -/
def park (st : St) (id : Nat) : St := { unlink st id with tmp := id :: (unlink st id).tmp }

/-- the inner loop of `walk_timers` over one wheel slot followed by `list_merge`
(scheduler.c:680-738).  `fuel` bounds the number of iterations; `none` means that it did not
suffice (callbacks can keep the loop busy for ever). -/
def walkSlot (env : Env) (slot : Nat) : Nat → St → Option St
  | 0, _ => none
  | fuel + 1, st =>
    match st.wheel slot with
    | [] => some { st with wheel := (fun k => if k = slot then st.tmp else st.wheel k), tmp := [] }   -- :738
    | id :: _ =>
      let st := park st id
      if (st.entries id).removed then walkSlot env slot fuel st              -- :696-698
      else if isTimedOut st.now (st.entries id).clock then walkSlot env slot fuel (fire env st id)
      else walkSlot env slot fuel st

/-- the outer loop of `walk_timers` (scheduler.c:673-747); the first number is
`TIMER_WHEEL_SLOTS - wheel_slot_walks` -/
def walkLoop (env : Env) (fuel : Nat) : Nat → St → Option St
  | 0, st => some st
  | n + 1, st =>
    if st.lastRun ≤ st.now then
      match walkSlot env (st.lastRun % 1024) fuel st with
      | none => none
      | some st => walkLoop env fuel n { st with lastRun := (st.lastRun + 1) % W }
    else some st

/-- `walk_timers` (scheduler.c:661-756) -/
def walk (env : Env) (fuel : Nat) (st : St) : Option St :=
  (walkLoop env fuel 1024 st).map fun st => { st with lastRun := st.now }

/-- `walk_timers_cleanup` / `olsr_cleanup_timer` (scheduler.c:758-766, 987-1010): every stopped timer
is taken off its list and freed.  (The cleanup tree holds exactly the timers marked REMOVED.) -/
def cleanup (st : St) : St :=
  { st with
    entries := fun i => if (st.entries i).removed then Timer.dead else st.entries i
    wheel := fun k => (st.wheel k).filter fun i => !(st.entries i).removed
    tmp := st.tmp.filter fun i => !(st.entries i).removed }

/-- what can happen to the timer service between and during main-loop rounds
(olsr_scheduler, scheduler.c:530-575) -/
inductive Op where
  | call (op : CbOp)        -- some code starts, stops or changes a timer
  | advance (d : Nat)       -- the clock is read again, `d` ms later
  | walk (env : Env)
  | cleanup

/-- one step; `none` if a walk does not terminate within the fuel -/
def step (fuel : Nat) (st : St) : Op → Option St
  | .call op => some (cbStep st op)
  | .advance d => some { st with tnow := st.tnow + d }
  | .walk env => walk env fuel st
  | .cleanup => some (cleanup st)

def run (fuel : Nat) : St → List Op → Option St
  | st, [] => some st
  | st, op :: ops => match step fuel st op with
    | none => none
    | some st => run fuel st ops

/-- state after `olsr_init_timers` (scheduler.c:627-655) at true time `t` -/
def St.init (t : Nat) : St :=
  { tnow := t, lastRun := t % W, entries := fun _ => Timer.dead, wheel := fun _ => [], tmp := [], next := 0,
    log := [], ub := false }

end Verif.Timer
