import Verif.InfoOutModel
/-
What should happen to the replies of an info plugin.
-/
namespace Verif.InfoOut

/-- An event is about a connection. -/
def about (k : Nat) : Ev → Bool
  | .sent j _ => j = k
  | .failed j => j = k
  | .closed j => j = k
  | .refused j => j = k

/-- The requests among the events, with their replies. -/
def requests : List Op → List (Nat × Bytes)
  | [] => []
  | .request k d _ _ :: os => (k, d) :: requests os
  | .tick _ _ :: os => requests os

/-- All that happened on connection `k` whose reply is `d`, in order, when it is
over: it was refused; or the reply was sent, in pieces, and the connection
closed; or an error came in between. -/
def Over (k : Nat) (d : Bytes) (log : List Ev) : Prop :=
  log = [.refused k] ∨
  (∃ chunks : List Bytes, d = chunks.flatten ∧ log = chunks.map (Ev.sent k) ++ [.closed k]) ∨
  (∃ (chunks : List Bytes) (rest : Bytes), d = chunks.flatten ++ rest ∧
    log = chunks.map (Ev.sent k) ++ [.failed k, .closed k])

/-- Something is still to be sent on connection `k`: what was sent is the start
of the reply. -/
def Pending (k : Nat) (d : Bytes) (log : List Ev) : Prop :=
  ∃ (chunks : List Bytes) (rest : Bytes), d = chunks.flatten ++ rest ∧ log = chunks.map (Ev.sent k)

/-- A connection has a slot. -/
def InSlot (st : St) (k : Nat) : Prop := ∃ (i : Nat) (s : Slot), st.slots[i]? = some (some s) ∧ s.sock = k

end Verif.InfoOut
