import Verif.DedupModel

/-!
# What the detection of duplicates is to do

The last `n` different messages are remembered, the newest first.  A message that is among them is dropped, any
other is remembered, in place of the oldest if there are `n`.
-/

namespace Verif.Dedup

/-- Messages of this node are left alone. -/
def mine (c : Cfg) (m : Msg) : Prop := c.loopback = false ∧ m.2 = c.own

instance (c : Cfg) (m : Msg) : Decidable (mine c m) := inferInstanceAs (Decidable (_ ∧ _))

/-- Whether a message is taken, given those remembered. -/
def taken (c : Cfg) (rs : List Msg) (m : Msg) : Bool :=
  decide (¬ mine c m) && (!c.dedup || !rs.contains m)

/-- The messages remembered after one more. -/
def remember (c : Cfg) (n : Nat) (rs : List Msg) (m : Msg) : List Msg :=
  if taken c rs m = true ∧ c.dedup = true then (m :: rs).take n else rs

/-- The messages remembered after a series. -/
def remembered (c : Cfg) (n : Nat) (rs : List Msg) : List (Msg × Bool) → List Msg
  | [] => rs
  | m :: ms => remembered c n (remember c n rs m.1) ms

/-- What is sent for a series. -/
def sent (c : Cfg) (n : Nat) (rs : List Msg) : List (Msg × Bool) → List Bool
  | [] => []
  | m :: ms => (taken c rs m.1 && m.2) :: sent c n (remember c n rs m.1) ms

/-- The messages of a series that are taken. -/
def takenOf (c : Cfg) (n : Nat) (rs : List Msg) : List (Msg × Bool) → List Msg
  | [] => []
  | m :: ms =>
    if taken c rs m.1 = true then m.1 :: takenOf c n (remember c n rs m.1) ms
    else takenOf c n (remember c n rs m.1) ms

end Verif.Dedup
