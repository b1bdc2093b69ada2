import Verif.SockModel
/-
What the socket list of the scheduler should do, told by what happened.
-/
namespace Verif.Sock

/-- The entry an event is about. -/
def about : Ev → Nat
  | .added id _ _ _ _ => id
  | .removed id => id
  | .freed id => id
  | .called id _ _ _ _ _ _ => id

/-- An event is right after the events `pre`. -/
def OkEv (pre : List Ev) : Ev → Prop
  | .added id _ pr imm _ => (∀ ev ∈ pre, about ev ≠ id) ∧ ¬ (pr = none ∧ imm = none)
  | .removed id => (∃ fd pr imm d, Ev.added id fd pr imm d ∈ pre) ∧ Ev.removed id ∉ pre ∧ Ev.freed id ∉ pre
  | .freed id => Ev.removed id ∈ pre ∧ Ev.freed id ∉ pre
  | .called id immediate h fd d rd wr =>
    (∃ pr imm, Ev.added id fd pr imm d ∈ pre ∧ (if immediate then imm else pr) = some h) ∧
    Ev.removed id ∉ pre ∧ Ev.freed id ∉ pre ∧ (rd || wr) = true

/-- Every event is right. -/
def Trace (log : List Ev) : Prop := ∀ pre ev post, log = pre ++ ev :: post → OkEv pre ev

/-- An entry asks `select` for reading or writing. -/
def Wants (immediate write : Bool) (e : Ent) : Prop :=
  (if immediate then e.imm else e.pr) ≠ none ∧
  e.flags.testBit ((if immediate then 2 else 0) + (if write then 1 else 0)) = true

/-- The entry is called in `new`. -/
def Called (immediate : Bool) (e : Ent) (new : List Ev) : Prop :=
  ∃ h rd wr, (if immediate then e.imm else e.pr) = some h ∧ Ev.called e.id immediate h e.fd e.data rd wr ∈ new

/-- An event is a call. -/
def isCall : Ev → Bool
  | .called .. => true
  | _ => false

/-- A handler adds nothing. -/
def NoAdd (ops : List Op) : Prop := ∀ fd pr imm d f, Op.add fd pr imm d f ∉ ops

end Verif.Sock
