import Verif.SpfModel

/- Specification of the route calculation: walks over usable links. -/
namespace Verif.Spf

/-- A usable link: it is in the database, so is its reverse, and it is not
broken. -/
def Usable (g : Graph) (u v c : Nat) : Prop :=
  (⟨v, c⟩ : Edge) ∈ g.edges u ∧ (∃ d, (⟨u, d⟩ : Edge) ∈ g.edges v) ∧ c < linkCostBroken

/-- A walk over usable links with its cost and the number of links. -/
inductive Walk (g : Graph) (s : Nat) : Nat → Nat → Nat → Prop where
  | nil : Walk g s s 0 0
  | step {u v w c n : Nat} : Walk g s u w n → Usable g u v c → Walk g s v (w + c) (n + 1)

/-- The best link of a neighbour if the neighbour is symmetric and the link is
not lost. -/
def Live (n : Nbr) (l : Link) : Prop := n.sym = true ∧ n.link = some l ∧ l.lost = false

/-- The database the run works on: the one given, with the links of this node
brought up to date. -/
def updated (c : Cfg) (self : Nat) (g : Graph) (nbrs : List Nbr) : Graph :=
  ⟨g.nodes, (nbrLoop c self g.edges nbrs).1⟩

end Verif.Spf
