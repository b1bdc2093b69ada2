import Verif.MdnsElectModel
/-
What the election is to do, in terms of the packets that have arrived and the
number of times the election timer has fired.  Nothing here refers to the router
list.
-/
namespace Verif.MdnsElect

/-- The packet announces router `rid` of network `net`, in the family this
daemon runs with. -/
def Announces (v6 : Bool) (pkt : List Nat) (net : Nat) (rid : List Nat) : Prop :=
  ∃ fam addr rest : List Nat,
    pkt = [36, 82, 69, 80] ++ fam ++ addr ++ net :: rest ∧ fam.length = 4 ∧ addr.length = 16 ∧
    (fam = [2, 0, 0, 0] ↔ v6 = false) ∧ rid = addr.take (if v6 then 16 else 4)

/-- The router `rid` of network `net` has been heard on socket `skfd` with `n`
elections since. -/
def HeardAgo (v6 : Bool) (evs : List Ev) (skfd net : Nat) (rid : List Nat) (n : Nat) : Prop :=
  ∃ pre post pkt, evs = pre ++ Ev.recv skfd pkt :: post ∧ Announces v6 pkt net rid ∧
    post.count Ev.elect = n

/-- `a` comes before `b` when addresses are compared byte by byte. -/
def Smaller (a b : List Nat) : Prop :=
  ∃ (i : Nat) (x y : Nat), a.take i = b.take i ∧ a[i]? = some x ∧ b[i]? = some y ∧ x < y

end Verif.MdnsElect
