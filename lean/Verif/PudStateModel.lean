/-!
# Model of `lib/pud/src/state.c`

The movement state of the PUD plugin, from two sub-states with hysteresis.  The counters are `unsigned long long`.  The
pointers for the results are taken as given (state.c 178-182, 190-217 skip the ones that are NULL).
-/

namespace Verif.PudState

/-- `MovementState` (state.h 68-71). -/
inductive Mv where
  | stationary
  | moving
deriving DecidableEq, Repr

/-- `TristateBoolean` (state.h 57-61). -/
inductive Tri where
  | unknown
  | unset
  | set
deriving DecidableEq, Repr

/-- `SubStateType` (state.c 59-65). -/
structure Sub where
  internal : Mv
  counter : Nat
  toStationary : Nat
  toMoving : Nat
  external : Mv
deriving DecidableEq, Repr

/-- `SubStateIndex` (state.h 77-81). -/
inductive Idx where
  | position
  | gateway
deriving DecidableEq, Repr

/-- `StateType` (state.c 68-71). -/
structure St where
  position : Sub
  gateway : Sub
  external : Mv
deriving DecidableEq, Repr

/-- The four thresholds of the configuration (configuration.c 1287-1366). -/
structure Cfg where
  posStationary : Nat
  posMoving : Nat
  gwStationary : Nat
  gwMoving : Nat
deriving DecidableEq, Repr

/-- `initState` (state.c 84-96). -/
def init (c : Cfg) : St :=
  { position := ⟨.stationary, 0, c.posStationary, c.posMoving, .stationary⟩
    gateway := ⟨.moving, 0, c.gwStationary, c.gwMoving, .moving⟩
    external := .moving }

/-- The new internal state (state.c 129-137). -/
def newInternal (movingNow : Tri) (gpnonChanged : Bool) : Mv :=
  if movingNow = .set ∨ gpnonChanged = true then .moving
  else if movingNow = .unset then .stationary
  else .stationary

/-- The sub-state with the new internal state (state.c 138-149). -/
def setInternal (s : Sub) (v : Mv) : Sub :=
  { s with internal := v, counter := if s.internal ≠ v then 0 else s.counter }

/-- The hysteresis (state.c 154-189, 184). -/
def hysteresis (s : Sub) (gpnonChanged : Bool) : Sub :=
  if s.internal ≠ s.external then
    match s.internal with
    | .stationary =>
      { s with
        counter := (s.counter + 1) % 2 ^ 64
        external := if (s.counter + 1) % 2 ^ 64 ≥ s.toStationary then .stationary else s.external }
    | .moving =>
      if gpnonChanged = true then { s with counter := s.toMoving, external := .moving }
      else
        { s with
          counter := (s.counter + 1) % 2 ^ 64
          external := if (s.counter + 1) % 2 ^ 64 ≥ s.toMoving then .moving else s.external }
  else s

/-- The sub-state after a call. -/
def subStep (s : Sub) (movingNow : Tri) (gpnonChanged : Bool) : Sub :=
  hysteresis (setInternal s (newInternal movingNow gpnonChanged)) gpnonChanged

/-- `state.substate[subStateIndex]`. -/
def St.sub (st : St) : Idx → Sub
  | .position => st.position
  | .gateway => st.gateway

/-- `state.substate[subStateIndex] = …`. -/
def St.setSub (st : St) : Idx → Sub → St
  | .position, s => { st with position := s }
  | .gateway, s => { st with gateway := s }

/-- The external state of a sub-state has changed to `v`: whether the overall state follows (state.c 197-208). -/
def transition (st : St) (v : Mv) : Bool :=
  match v with
  | .stationary => st.position.external = v && st.gateway.external = v
  | .moving => true

/-- What a call gives back: `externalState`, `externalStateChange`, `subStateExternalStateChange`. -/
structure Res where
  external : Mv
  change : Bool
  subChange : Bool
deriving DecidableEq, Repr

/-- `determineStateWithHysteresis` (state.c 117-222). -/
def determine (st : St) (i : Idx) (movingNow : Tri) (gpnonChanged : Bool) : St × Res :=
  if (st.sub i).external ≠ (subStep (st.sub i) movingNow gpnonChanged).external then
    if transition (st.setSub i (subStep (st.sub i) movingNow gpnonChanged))
        (subStep (st.sub i) movingNow gpnonChanged).external = true then
      ({ st.setSub i (subStep (st.sub i) movingNow gpnonChanged) with
          external := (subStep (st.sub i) movingNow gpnonChanged).external },
        ⟨(subStep (st.sub i) movingNow gpnonChanged).external,
          st.external ≠ (subStep (st.sub i) movingNow gpnonChanged).external, true⟩)
    else (st.setSub i (subStep (st.sub i) movingNow gpnonChanged), ⟨st.external, false, true⟩)
  else (st.setSub i (subStep (st.sub i) movingNow gpnonChanged), ⟨st.external, false, false⟩)

/-- A call: the sub-state, the movement, and whether the source of information changed. -/
abbrev Call := Idx × Tri × Bool

/-- A series of calls. -/
def run (st : St) : List Call → St
  | [] => st
  | c :: cs => run (determine st c.1 c.2.1 c.2.2).1 cs

end Verif.PudState
