import Verif.SpfLemmas

/- Properties C25, C26 and C52: the route calculation. -/
namespace Verif.Spf

/-! ### C25 shortest paths -/

/-- What C25 asks of a result: for every node, the recorded cost is that of a
walk over usable links and no walk is cheaper; a node that no walk reaches has
the unreachable cost. -/
def ShortestCosts (g : Graph) (self : Nat) (s : St) : Prop :=
  (∀ v w n, Walk g self v w n → (s.vtx v).cost ≤ w ∧ ∃ m, Walk g self v (s.vtx v).cost m) ∧
  (∀ v, (¬ ∃ w n, Walk g self v w n) → (s.vtx v).cost = routeCostBroken)

/-- The side conditions: this node and every node with links is in the
database, no usable link costs more than `bound`, and the sum over all nodes
stays below the unreachable cost. -/
structure Fits (g : Graph) (me bound : Nat) : Prop where
  self_mem : me ∈ g.nodes
  dom : ∀ u, g.edges u ≠ [] → u ∈ g.nodes
  cost_le : ∀ u v c, Usable g u v c → c ≤ bound
  small : g.nodes.length * bound < routeCostBroken

private theorem ctx_ok {g : Graph} {self bound : Nat} (h : Fits g self bound)
    (p : Nat → Option Nat) : (Ctx.mk g self p bound).Ok :=
  ⟨h.self_mem, h.dom, h.cost_le, h.small⟩

private theorem run_result {g : Graph} {self bound : Nat} (h : Fits g self bound)
    (p : Nat → Option Nat) :
    ∃ s path, run g g.nodes.length (initial self p) [] = some (s, path) ∧
      Inv ⟨g, self, p, bound⟩ path path.length s ∧ s.cand = [] ∧ self ∈ path := by
  exact run_inv (ctx_ok h p) g.nodes.length (initial self p) []
    (initial_inv ⟨g, self, p, bound⟩) (Or.inl ⟨rfl, rfl⟩) (by simp)

/-- Every node on a walk has a finite cost. -/
private theorem reach_finite {g : Graph} {self bound : Nat} (h : Fits g self bound)
    {p : Nat → Option Nat} {s : St} {path : List Nat} (hi : Inv ⟨g, self, p, bound⟩ path path.length s)
    (hc : s.cand = []) (v w n : Nat) (hw : Walk g self v w n) : (s.vtx v).cost < routeCostBroken := by
  induction hw with
  | nil => rw [hi.self0]; decide
  | @step u v w c n p' hu ih =>
    have hm : u ∈ path := (final_dist hi hc p').2 ih
    have h1 := hi.closed u hm v c hu
    have h2 := hi.bnd u ih
    have h3 := h.cost_le u v c hu
    have h4 := h.small
    have h5 : (s.vtx v).cost ≤ path.length * bound + bound := by
      simp only at h2
      omega
    rcases Nat.lt_or_ge (s.vtx v).cost routeCostBroken with h6 | h6
    · exact h6
    · -- v is not settled, so the path list is shorter than the node list
      have hv : v ∉ path := fun hm => by
        have := (hi.settled v hm).1
        omega
      have hle := length_le_of_subset (S := v :: path) (l := g.nodes)
        (List.nodup_cons.2 ⟨hv, hi.snodup⟩) (by
          intro y hy
          rcases List.mem_cons.1 hy with e | hm'
          · rw [e]
            exact usable_mem (ctx_ok h p) hu
          · obtain ⟨m, hm2, _⟩ := hi.walk y (hi.settled y hm').1
            exact walk_mem (ctx_ok h p) hm2)
      rw [List.length_cons] at hle
      have h7 : (path.length + 1) * bound ≤ g.nodes.length * bound := Nat.mul_le_mul_right _ hle
      rw [Nat.add_mul, Nat.one_mul] at h7
      omega

private theorem shortest_of_inv {g : Graph} {self bound : Nat} (h : Fits g self bound)
    {p : Nat → Option Nat} {s : St} {path : List Nat} (hi : Inv ⟨g, self, p, bound⟩ path path.length s)
    (hc : s.cand = []) : ShortestCosts g self s := by
  constructor
  · intro v w n hw
    refine ⟨(final_dist hi hc hw).1, ?_⟩
    obtain ⟨m, hm, _⟩ := hi.walk v (reach_finite h hi hc v w n hw)
    exact ⟨m, hm⟩
  · intro v hv
    rcases Nat.lt_or_ge (s.vtx v).cost routeCostBroken with hb | hb
    · obtain ⟨m, hm, _⟩ := hi.walk v hb
      exact absurd ⟨_, m, hm⟩ hv
    · exact Nat.le_antisymm (hi.fin v) hb

/-- C25: as long as the costs cannot overflow, the calculation ends without
undefined behaviour, its costs are the shortest ones, and the path list
consists of the reachable nodes, each once, by ascending cost; the recorded
hop count is, modulo 256, the number of links of such a cheapest walk. -/
theorem C25_shortest_partial (c : Cfg) (self bound : Nat) (g : Graph) (nbrs : List Nbr)
    (h : Fits (updated c self g nbrs) self bound) :
    ∃ s path, calculate c self g nbrs = some (s, path) ∧ s.cand = [] ∧
      ShortestCosts (updated c self g nbrs) self s ∧
      (∀ v, v ∈ path ↔ ∃ w n, Walk (updated c self g nbrs) self v w n) ∧
      path.Nodup ∧ path.Pairwise (fun a b => (s.vtx a).cost ≤ (s.vtx b).cost) ∧
      ∀ v ∈ path, ∃ n, Walk (updated c self g nbrs) self v (s.vtx v).cost n ∧
        (s.vtx v).hops = n % 256 := by
  obtain ⟨s, path, h1, hi, hc, _⟩ := run_result h (nbrLoop c self g.edges nbrs).2
  have hs := shortest_of_inv h hi hc
  refine ⟨s, path, h1, hc, hs, ?_, hi.snodup, hi.ssorted, ?_⟩
  · intro v
    constructor
    · intro hm
      obtain ⟨n, hw, _⟩ := hi.walk v (hi.settled v hm).1
      exact ⟨_, n, hw⟩
    · rintro ⟨w, n, hw⟩
      exact (final_dist hi hc hw).2 (reach_finite h hi hc v w n hw)
  · intro v hm
    exact hi.walk v (hi.settled v hm).1

private theorem updated_dom (c : Cfg) (self : Nat) (g : Graph) (nbrs : List Nbr) (hs : self ∈ g.nodes)
    (hd : ∀ u, g.edges u ≠ [] → u ∈ g.nodes) :
    ∀ u, (updated c self g nbrs).edges u ≠ [] → u ∈ (updated c self g nbrs).nodes := by
  intro u hu
  show u ∈ g.nodes
  by_cases e : u = self
  · rw [e]; exact hs
  · obtain ⟨x, hx⟩ := List.exists_mem_of_ne_nil _ hu
    have := ((nbrLoop_other c self g.edges nbrs).1 u x (fun e' => absurd e' e)).1 hx
    exact hd u (List.ne_nil_of_mem this)

/-- C25 for networks of at most 1024 nodes, without any condition on the
costs. -/
theorem C25_1024_nodes_partial (c : Cfg) (self : Nat) (g : Graph) (nbrs : List Nbr) (hs : self ∈ g.nodes)
    (hd : ∀ u, g.edges u ≠ [] → u ∈ g.nodes) (hn : g.nodes.length ≤ 1024) :
    ∃ s path, calculate c self g nbrs = some (s, path) ∧ s.cand = [] ∧
      ShortestCosts (updated c self g nbrs) self s ∧
      ∀ v, v ∈ path ↔ ∃ w n, Walk (updated c self g nbrs) self v w n := by
  have h : Fits (updated c self g nbrs) self 4194303 := by
    refine ⟨hs, updated_dom c self g nbrs hs hd, fun u v d hu => ?_, ?_⟩
    · have : d < 4194304 := hu.2.2
      omega
    · show g.nodes.length * 4194303 < 4294967295
      omega
  obtain ⟨s, path, h1, h2, h3, h4, _⟩ := C25_shortest_partial c self 4194303 g nbrs h
  exact ⟨s, path, h1, h2, h3, h4⟩

/-! #### the bound on the costs is needed -/

/-- Link quality in use; a new link has the broken cost. -/
def lqCfg : Cfg := ⟨true, 4194304⟩

/-- A chain of 1025 nodes whose links all have the largest cost below the
broken one. -/
def chain : Graph where
  nodes := List.range 1025
  edges i :=
    (if i = 0 then [] else if i ≤ 1024 then [⟨i - 1, 4194303⟩] else []) ++
      (if i < 1024 then [⟨i + 1, 4194303⟩] else [])

def chainNbrs : List Nbr := [⟨1, true, some ⟨7, false, 4194303⟩⟩]

/-- The state when the nodes below `k` are settled. -/
private structure AtNode (k : Nat) (s : St) : Prop where
  near : ∀ i, i ≤ k → (s.vtx i).cost = i * 4194303
  far : ∀ i, k < i → (s.vtx i).cost = routeCostBroken
  cand : s.cand = [(k * 4194303, k)]

private theorem relaxEdge_skip (g : Graph) (tc : Nat) (s : St) (ed : Edge)
    (h : ¬ ((s.vtx tc).cost + ed.cost) % 4294967296 < (s.vtx ed.dest).cost) :
    relaxEdge g tc s ed = some s := by
  unfold relaxEdge
  split
  · rfl
  · split
    · rfl
    · simp only [if_neg h]

private theorem relaxEdge_new (g : Graph) (tc : Nat) (s : St) (ed : Edge)
    (h1 : hasEdge g.edges ed.dest tc = true) (h2 : ed.cost < linkCostBroken)
    (h3 : (s.vtx ed.dest).cost = routeCostBroken) (h4 : (s.vtx tc).cost + ed.cost < routeCostBroken) :
    ∃ nv : Vtx, nv.cost = (s.vtx tc).cost + ed.cost ∧ relaxEdge g tc s ed =
      some ⟨put s.vtx ed.dest nv, insertCand ((s.vtx tc).cost + ed.cost, ed.dest) s.cand⟩ := by
  have hm : ((s.vtx tc).cost + ed.cost) % 4294967296 = (s.vtx tc).cost + ed.cost := by
    apply Nat.mod_eq_of_lt
    have : routeCostBroken = 4294967295 := rfl
    omega
  refine ⟨⟨(s.vtx tc).cost + ed.cost, pullHop (s.vtx tc).hop (s.vtx ed.dest).hop,
    ((s.vtx tc).hops + 1) % 256⟩, rfl, ?_⟩
  unfold relaxEdge
  rw [if_neg (by rw [h1]; decide), if_neg (by omega)]
  simp only [hm]
  rw [if_pos (by rw [h3]; exact h4), if_neg (by rw [h3]; omega)]
  rfl

private theorem chain_edges (e : Nat → List Edge) (he : ∀ i, e i = chain.edges i) (k : Nat) (hk : k < 1024) :
    hasEdge e (k + 1) k = true := by
  rw [hasEdge_iff]
  refine ⟨4194303, ?_⟩
  rw [he]
  simp only [chain]
  rw [if_neg (show ¬ k + 1 = 0 by omega), if_pos (show k + 1 ≤ 1024 by omega)]
  simp

private theorem chain_step (g : Graph) (he : ∀ i, g.edges i = chain.edges i) (k : Nat) (hk : k < 1024)
    (s : St) (h : AtNode k s) (fuel : Nat) (path : List Nat) :
    ∃ s', AtNode (k + 1) s' ∧ run g (fuel + 1) s path = run g fuel s' (path ++ [k]) := by
  have hb : routeCostBroken = 4294967295 := rfl
  have hck := h.near k (Nat.le_refl _)
  obtain ⟨nv, hnv, hr⟩ := relaxEdge_new g k s ⟨k + 1, 4194303⟩ (chain_edges _ he k hk)
    (by show (4194303 : Nat) < 4194304; omega) (h.far (k + 1) (by omega)) (by
      show (s.vtx k).cost + 4194303 < _
      rw [hck, hb]
      omega)
  have hnv' : nv.cost = (k + 1) * 4194303 := by
    rw [hnv]
    show (s.vtx k).cost + 4194303 = _
    omega
  have hrel : relax g k (g.edges k) s =
      some ⟨put s.vtx (k + 1) nv, insertCand ((s.vtx k).cost + 4194303, k + 1) s.cand⟩ := by
    rw [he]
    simp only [chain]
    rw [if_pos hk]
    by_cases h0 : k = 0
    · rw [if_pos h0]
      show relax g k [⟨k + 1, 4194303⟩] s = _
      simp only [relax, hr]
    · rw [if_neg h0, if_pos (by omega)]
      show relax g k [⟨k - 1, 4194303⟩, ⟨k + 1, 4194303⟩] s = _
      have hs := relaxEdge_skip g k s ⟨k - 1, 4194303⟩ (by
        show ¬ ((s.vtx k).cost + 4194303) % 4294967296 < (s.vtx (k - 1)).cost
        rw [hck, h.near (k - 1) (by omega)]
        omega)
      simp only [relax, hs, hr]
  have hins : insertCand ((s.vtx k).cost + 4194303, k + 1) s.cand =
      [(k * 4194303, k), ((k + 1) * 4194303, k + 1)] := by
    rw [h.cand, hck]
    simp only [insertCand]
    rw [if_pos (by omega)]
    have : k * 4194303 + 4194303 = (k + 1) * 4194303 := by omega
    rw [this]
  have hdel : deleteCand k [(k * 4194303, k), ((k + 1) * 4194303, k + 1)] =
      some [((k + 1) * 4194303, k + 1)] := by
    simp only [deleteCand, if_true]
  refine ⟨⟨put s.vtx (k + 1) nv, [((k + 1) * 4194303, k + 1)]⟩, ⟨?_, ?_, rfl⟩, ?_⟩
  · intro i hi
    show (put s.vtx (k + 1) nv i).cost = _
    by_cases e : i = k + 1
    · rw [e, put_same, hnv']
    · rw [put_other _ _ _ _ e]
      exact h.near i (by omega)
  · intro i hi
    show (put s.vtx (k + 1) nv i).cost = _
    rw [put_other _ _ _ _ (by omega)]
    exact h.far i (by omega)
  · rw [hins] at hrel
    simp only [run, h.cand, hrel, hdel]

private theorem chain_reach (g : Graph) (he : ∀ i, g.edges i = chain.edges i) (p : Nat → Option Nat)
    (k : Nat) (hk : k ≤ 1024) :
    ∃ s path, AtNode k s ∧ run g 1025 (initial 0 p) [] = run g (1025 - k) s path := by
  induction k with
  | zero =>
    refine ⟨initial 0 p, [], ⟨fun i hi => ?_, fun i hi => ?_, rfl⟩, rfl⟩
    · have : i = 0 := by omega
      subst this
      rfl
    · show (if i = 0 then 0 else routeCostBroken) = _
      rw [if_neg (by omega)]
  | succ k ih =>
    obtain ⟨s, path, h1, h2⟩ := ih (by omega)
    obtain ⟨s', h3, h4⟩ := chain_step g he k (by omega) s h1 (1025 - (k + 1)) path
    refine ⟨s', path ++ [k], h3, ?_⟩
    rw [h2, ← h4]
    congr 1
    omega

/-- C25 fails from 1025 nodes on: along a chain of 1025 nodes whose links are
all just below the broken cost, the sum passes 2³², the settled node before the
last one looks improvable, and it is deleted from a tree it is not in. -/
theorem C25_overflow : calculate lqCfg 0 chain chainNbrs = none := by
  obtain ⟨e', he'⟩ : ∃ e', (nbrLoop lqCfg 0 chain.edges chainNbrs) = e' := ⟨_, rfl⟩
  have he : ∀ i, e'.1 i = chain.edges i := by
    intro i
    rw [← he']
    match i with
    | 0 => decide
    | n + 1 => rfl
  unfold calculate
  rw [he']
  obtain ⟨g, hg⟩ : ∃ g : Graph, (⟨chain.nodes, e'.1⟩ : Graph) = g := ⟨_, rfl⟩
  have hge : ∀ i, g.edges i = chain.edges i := by rw [← hg]; exact he
  have hlen : chain.nodes.length = 1025 := by
    simp only [chain, List.length_range]
  rw [hg, hlen]
  obtain ⟨s, path, h, hr⟩ := chain_reach g hge e'.2 1024 (Nat.le_refl _)
  rw [hr]
  have hedge : g.edges 1024 = [⟨1023, 4194303⟩] := by rw [hge]; rfl
  have hinv : hasEdge g.edges 1023 1024 = true := by
    rw [hasEdge_iff]
    refine ⟨4194303, ?_⟩
    rw [hge]
    simp [chain]
  have hrel : relax g 1024 (g.edges 1024) s = none := by
    rw [hedge]
    have : relaxEdge g 1024 s ⟨1023, 4194303⟩ = none := by
      unfold relaxEdge
      have h1 : (s.vtx 1024).cost = 4294966272 := h.near 1024 (Nat.le_refl _)
      have h2 : (s.vtx 1023).cost = 4290771969 := h.near 1023 (by omega)
      have hd : deleteCand 1023 s.cand = none := by
        rw [h.cand]
        rfl
      simp only [hinv, h1, h2, hd]
      rfl
    simp only [relax, this]
  show run g 1 s path = none
  simp only [run, h.cand, hrel]

/-- C25: which links of this node the calculation uses.  A neighbour that is
not symmetric, or whose best link is missing or lost, has no link; a usable
neighbour has exactly one cost: that of its best link if its link was in the
database before, otherwise the cost given to a new link.  Links of other nodes
and links to addresses outside the neighbour table are as they were. -/
theorem C25_own_links (c : Cfg) (self : Nat) (g : Graph) (nbrs : List Nbr)
    (hnd : (nbrs.map (·.addr)).Nodup) (hself : self ∉ nbrs.map (·.addr)) :
    (∀ n ∈ nbrs, (¬ ∃ l, Live n l) → ∀ d, (⟨n.addr, d⟩ : Edge) ∉ (updated c self g nbrs).edges self) ∧
    (∀ n ∈ nbrs, ∀ l, Live n l → ∀ d, ((⟨n.addr, d⟩ : Edge) ∈ (updated c self g nbrs).edges self ↔
      ((∃ d', (⟨n.addr, d'⟩ : Edge) ∈ g.edges self) ∧
        ((c.lq = true ∧ d = l.cost) ∨ (c.lq = false ∧ (⟨n.addr, d⟩ : Edge) ∈ g.edges self))) ∨
      ((¬ ∃ d', (⟨n.addr, d'⟩ : Edge) ∈ g.edges self) ∧ d = c.freshCost))) ∧
    (∀ v ed, (v ≠ self ∨ ed.dest ∉ nbrs.map (·.addr)) →
      (ed ∈ (updated c self g nbrs).edges v ↔ ed ∈ g.edges v)) := by
  refine ⟨fun n hn h d => nbrLoop_dead c self g.edges nbrs hnd n hn h d, ?_, ?_⟩
  · intro n hn l hl d
    have hne : n.addr ≠ self := fun e => hself (e ▸ List.mem_map_of_mem (f := (·.addr)) hn)
    have h1 := (nbrLoop_live c self g.edges nbrs hnd n hn l hl hne).1 d
    rw [← hasEdge_iff]
    refine h1.trans ?_
    cases hasEdge g.edges self n.addr <;> cases c.lq <;> simp
  · intro v ed h
    apply (nbrLoop_other c self g.edges nbrs).1 v ed
    intro e
    exact h.resolve_left (fun h' => h' e)

/-! ### C26 next hops -/

/-- What C26 asks: the next hop of a node is the usable best link of a
symmetric neighbour, and going there first is a walk of the recorded cost. -/
def NextHops (g : Graph) (self : Nat) (nbrs : List Nbr) (s : St) (path : List Nat) : Prop :=
  ∀ v ∈ path, v ≠ self → ∃ n ∈ nbrs, ∃ l, Live n l ∧ (s.vtx v).hop = some l.id ∧
    ∃ c w k, Usable g self n.addr c ∧ Walk g n.addr v w k ∧ (s.vtx v).cost = c + w

/-- C26 under the condition that this node has no left-over link in the
database to an address that is not in the neighbour table.  Without it the
property fails, see `C26_stale_link_wrong_hop`. -/
theorem C26_next_hop_partial (c : Cfg) (self bound : Nat) (g : Graph) (nbrs : List Nbr)
    (h : Fits (updated c self g nbrs) self bound)
    (hnd : (nbrs.map (·.addr)).Nodup) (hself : self ∉ nbrs.map (·.addr))
    (hfresh : ∀ ed ∈ g.edges self, ed.dest ∈ nbrs.map (·.addr)) :
    ∃ s path, calculate c self g nbrs = some (s, path) ∧
      NextHops (updated c self g nbrs) self nbrs s path := by
  obtain ⟨s, path, h1, hi, hc, _⟩ := run_result h (nbrLoop c self g.edges nbrs).2
  refine ⟨s, path, h1, ?_⟩
  have hnb : ∀ v d, Usable (updated c self g nbrs) self v d → ∃ n ∈ nbrs, n.addr = v ∧ ∃ l, Live n l ∧
      (nbrLoop c self g.edges nbrs).2 v = some l.id := by
    intro v d hu
    have hv : v ∈ nbrs.map (·.addr) := by
      apply Classical.byContradiction
      intro hv
      have := ((nbrLoop_other c self g.edges nbrs).1 self ⟨v, d⟩ (fun _ => hv)).1 hu.1
      exact hv (hfresh _ this)
    obtain ⟨n, hn, e⟩ := List.mem_map.1 hv
    have hne : n.addr ≠ self := fun e => hself (e ▸ List.mem_map_of_mem (f := (·.addr)) hn)
    by_cases hl : ∃ l, Live n l
    · obtain ⟨l, hl⟩ := hl
      refine ⟨n, hn, e, l, hl, ?_⟩
      rw [← e, (nbrLoop_live c self g.edges nbrs hnd n hn l hl hne).2, if_pos]
      obtain ⟨d', hd'⟩ := hu.2.1
      rw [← e] at hd'
      exact (hasEdge_iff _ _ _).2 ⟨d', ((nbrLoop_other c self g.edges nbrs).1 n.addr ⟨self, d'⟩
        (fun e' => absurd e' hne)).1 hd'⟩
    · exact absurd (e ▸ hu.1) (nbrLoop_dead c self g.edges nbrs hnd n hn hl d)
  have hp : Preset (updated c self g nbrs) self (nbrLoop c self g.edges nbrs).2 := by
    refine ⟨(nbrLoop_other c self g.edges nbrs).2 self hself, fun v d hu => ?_⟩
    obtain ⟨_, _, _, l, _, h2⟩ := hnb v d hu
    exact ⟨l.id, h2⟩
  intro v hv hvs
  obtain ⟨l, h2, m, d, w, k, h3, h4, h5, h6⟩ := (hi.hop hp).2 v hvs (hi.settled v hv).1
  obtain ⟨n, hn, e, l', hl', h7⟩ := hnb m d h3
  refine ⟨n, hn, l', hl', ?_, d, w, k, e ▸ h3, e ▸ h5, h6⟩
  have : some l = some l'.id := h4.symm.trans h7
  exact h2.trans this

/-! #### the left-over link -/

/-- Node 0 is this node.  Node 1 was a neighbour known under another interface
address, so deleting its link entry left the link 0→1 in the database
(/repo/src/link_set.c:373-377 looks for the interface address).  Node 2 is a
neighbour; both lead to node 3. -/
def staleGraph : Graph where
  nodes := [0, 1, 2, 3]
  edges
    | 0 => [⟨1, 5⟩, ⟨2, 1⟩]
    | 1 => [⟨0, 5⟩, ⟨3, 1⟩]
    | 2 => [⟨0, 1⟩, ⟨3, 100⟩]
    | 3 => [⟨1, 1⟩, ⟨2, 100⟩]
    | _ => []

def staleNbrs : List Nbr := [⟨2, true, some ⟨7, false, 1⟩⟩]

/-- Cost, next hop and path list of a result. -/
def view (r : Option (St × List Nat)) (v : Nat) : Option (Nat × Option Nat × List Nat) :=
  r.map fun x => ((x.1.vtx v).cost, (x.1.vtx v).hop, x.2)

private theorem stale_result : view (calculate lqCfg 0 staleGraph staleNbrs) 3 =
    some (6, some 7, [0, 2, 1, 3]) := by decide

private theorem stale_edges : ∀ u, (updated lqCfg 0 staleGraph staleNbrs).edges u = staleGraph.edges u := by
  intro u
  match u with
  | 0 => decide
  | 1 => decide
  | 2 => decide
  | 3 => decide
  | n + 4 => rfl

/-- From node 2 every walk to node 3 costs at least 7. -/
private theorem stale_far {v w k : Nat}
    (h : Walk (updated lqCfg 0 staleGraph staleNbrs) 2 v w k) :
    (v = 0 ∧ 1 ≤ w) ∨ (v = 1 ∧ 6 ≤ w) ∨ v = 2 ∨ (v = 3 ∧ 7 ≤ w) := by
  induction h with
  | nil => simp
  | @step u v w c n _ hu ih =>
    have hm := hu.1
    rw [stale_edges] at hm
    rcases ih with ⟨e, h⟩ | ⟨e, h⟩ | e | ⟨e, h⟩ <;> subst e <;>
      simp only [staleGraph, List.mem_cons, List.not_mem_nil, or_false, Edge.mk.injEq] at hm <;>
      rcases hm with ⟨h1, h2⟩ | ⟨h1, h2⟩ <;> subst h1 <;> subst h2 <;> simp <;> omega

/-- C26 fails with a left-over link: node 3 is recorded with cost 6 (over node
1) and the next hop of node 2, but no path that starts with node 2 has that
cost. -/
theorem C26_stale_link_wrong_hop :
    ∃ s path, calculate lqCfg 0 staleGraph staleNbrs = some (s, path) ∧
      ¬ NextHops (updated lqCfg 0 staleGraph staleNbrs) 0 staleNbrs s path := by
  have hr := stale_result
  cases hc : calculate lqCfg 0 staleGraph staleNbrs with
  | none => rw [hc] at hr; cases hr
  | some x =>
    obtain ⟨s, path⟩ := x
    rw [hc] at hr
    simp only [view, Option.map_some, Option.some.injEq, Prod.mk.injEq] at hr
    obtain ⟨h1, _, h3⟩ := hr
    refine ⟨s, path, rfl, fun h => ?_⟩
    obtain ⟨n, hn, l, _, _, c, w, k, hu, hw, he⟩ := h 3 (by rw [h3]; decide) (by decide)
    simp only [staleNbrs, List.mem_singleton] at hn
    subst hn
    have hf := stale_far hw
    rw [h1] at he
    omega

/-- With a left-over link that is the cheapest way to node 3 from the start,
node 3 has no next hop at all, so no route, although it can be reached over
node 2. -/
theorem C26_stale_link_no_route :
    ∃ (g : Graph) (nbrs : List Nbr) (s : St) (path : List Nat),
      calculate lqCfg 0 g nbrs = some (s, path) ∧ 3 ∈ path ∧ (s.vtx 3).hop = none ∧
      ∃ n ∈ nbrs, ∃ l, Live n l ∧ ∃ c w k, Usable (updated lqCfg 0 g nbrs) 0 n.addr c ∧
        Walk (updated lqCfg 0 g nbrs) n.addr 3 w k := by
  have hr : view (calculate lqCfg 0 { staleGraph with
      edges := fun | 0 => [⟨1, 1⟩, ⟨2, 5⟩] | n => staleGraph.edges n } [⟨2, true, some ⟨7, false, 5⟩⟩]) 3 =
      some (2, none, [0, 1, 3, 2]) := by decide
  obtain ⟨g, hg⟩ : ∃ g : Graph, { staleGraph with
      edges := fun | 0 => [⟨1, 1⟩, ⟨2, 5⟩] | n => staleGraph.edges n } = g := ⟨_, rfl⟩
  rw [hg] at hr
  cases hc : calculate lqCfg 0 g [⟨2, true, some ⟨7, false, 5⟩⟩] with
  | none => rw [hc] at hr; cases hr
  | some x =>
    obtain ⟨s, path⟩ := x
    rw [hc] at hr
    simp only [view, Option.map_some, Option.some.injEq, Prod.mk.injEq] at hr
    obtain ⟨_, h2, h3⟩ := hr
    refine ⟨g, _, s, path, hc, by rw [h3]; decide, h2, _, List.mem_singleton.2 rfl, ⟨7, false, 5⟩,
      ⟨rfl, rfl, rfl⟩, 5, 0 + 100, 1, ?_, Walk.step Walk.nil ?_⟩
    · subst hg
      exact ⟨by decide, ⟨1, by decide⟩, by decide⟩
    · subst hg
      exact ⟨by decide, ⟨100, by decide⟩, by decide⟩

/-! ### C52 new neighbours -/

/-- C52 for a neighbour whose link was in the database before: it is reachable
at no more than the cost of its best link. -/
theorem C52_neighbour_reached_partial (c : Cfg) (self bound : Nat) (g : Graph) (nbrs : List Nbr)
    (h : Fits (updated c self g nbrs) self bound) (hq : c.lq = true)
    (hnd : (nbrs.map (·.addr)).Nodup) (hself : self ∉ nbrs.map (·.addr))
    (n : Nbr) (hn : n ∈ nbrs) (l : Link) (hl : Live n l) (hc : l.cost < linkCostBroken)
    (hinv : ∃ d, (⟨self, d⟩ : Edge) ∈ g.edges n.addr)
    (hold : ∃ d, (⟨n.addr, d⟩ : Edge) ∈ g.edges self) :
    ∃ s path, calculate c self g nbrs = some (s, path) ∧ n.addr ∈ path ∧
      (s.vtx n.addr).cost ≤ l.cost := by
  obtain ⟨s, path, h1, _, h2, h3, _⟩ := C25_shortest_partial c self bound g nbrs h
  obtain ⟨_, h5, h6⟩ := C25_own_links c self g nbrs hnd hself
  have hne : n.addr ≠ self := fun e => hself (e ▸ List.mem_map_of_mem (f := (·.addr)) hn)
  have hw : Walk (updated c self g nbrs) self n.addr (0 + l.cost) 1 := by
    refine Walk.step Walk.nil ⟨?_, ?_, hc⟩
    · exact (h5 n hn l hl l.cost).2 (Or.inl ⟨hold, Or.inl ⟨hq, rfl⟩⟩)
    · obtain ⟨d, hd⟩ := hinv
      exact ⟨d, (h6 n.addr ⟨self, d⟩ (Or.inl hne)).2 hd⟩
  refine ⟨s, path, h1, (h3 _).2 ⟨_, _, hw⟩, ?_⟩
  have := (h2.1 _ _ _ hw).1
  omega

/-- C52 fails for a new neighbour: its link is created without a quality, so
its cost is the broken one and the neighbour is unreachable in this
calculation, although its best link is fine and the neighbour has announced
this node. -/
theorem C52_new_neighbour_unreachable :
    ∃ (g : Graph) (n : Nbr) (l : Link) (s : St) (path : List Nat),
      Live n l ∧ l.cost = 1024 ∧ (∃ d, (⟨0, d⟩ : Edge) ∈ g.edges n.addr) ∧
      calculate lqCfg 0 g [n] = some (s, path) ∧ n.addr ∉ path ∧
      (s.vtx n.addr).cost = routeCostBroken := by
  have hr : view (calculate lqCfg 0 ⟨[0, 1], fun | 1 => [⟨0, 1024⟩] | _ => []⟩
      [⟨1, true, some ⟨7, false, 1024⟩⟩]) 1 = some (4294967295, some 7, [0]) := by decide
  cases hc : calculate lqCfg 0 ⟨[0, 1], fun | 1 => [⟨0, 1024⟩] | _ => []⟩
      [⟨1, true, some ⟨7, false, 1024⟩⟩] with
  | none => rw [hc] at hr; cases hr
  | some x =>
    obtain ⟨s, path⟩ := x
    rw [hc] at hr
    simp only [view, Option.map_some, Option.some.injEq, Prod.mk.injEq] at hr
    obtain ⟨h1, _, h3⟩ := hr
    exact ⟨_, ⟨1, true, some ⟨7, false, 1024⟩⟩, ⟨7, false, 1024⟩, s, path, ⟨rfl, rfl, rfl⟩, rfl,
      ⟨1024, by decide⟩, hc, by rw [h3]; decide, h1⟩

/-! ### the hypotheses can be met -/

/-- Three nodes in a triangle: the direct link 0→1 is dearer than the way over
node 2, which is a new neighbour only seen by node 1. -/
def triangle : Graph where
  nodes := [0, 1, 2]
  edges
    | 0 => [⟨1, 3000⟩, ⟨2, 1500⟩]
    | 1 => [⟨0, 3000⟩, ⟨2, 1024⟩]
    | 2 => [⟨0, 1500⟩, ⟨1, 1024⟩]
    | _ => []

def triangleNbrs : List Nbr := [⟨1, true, some ⟨5, false, 2600⟩⟩, ⟨2, true, some ⟨6, false, 1200⟩⟩]

example : view (calculate lqCfg 0 triangle triangleNbrs) 1 = some (2224, some 6, [0, 2, 1]) := by decide

private theorem triangle_edges (u : Nat) (hu : 3 ≤ u) :
    (updated lqCfg 0 triangle triangleNbrs).edges u = [] := by
  match u, hu with
  | n + 3, _ => rfl

/-- The example meets the conditions of C25, C26 and C52. -/
private theorem triangle_fits : Fits (updated lqCfg 0 triangle triangleNbrs) 0 4194303 := by
  refine ⟨by decide, ?_, fun u v d hu => ?_, by decide⟩
  · intro u hu
    show u ∈ [0, 1, 2]
    rcases Nat.lt_or_ge u 3 with h | h
    · match u, h with
      | 0, _ => decide
      | 1, _ => decide
      | 2, _ => decide
    · exact absurd (triangle_edges u h) hu
  · have : d < 4194304 := hu.2.2
    omega

example := C25_shortest_partial lqCfg 0 4194303 triangle triangleNbrs triangle_fits
example := C26_next_hop_partial lqCfg 0 4194303 triangle triangleNbrs triangle_fits (by decide)
  (by decide) (by decide)
example := C52_neighbour_reached_partial lqCfg 0 4194303 triangle triangleNbrs triangle_fits rfl
  (by decide) (by decide) ⟨2, true, some ⟨6, false, 1200⟩⟩ (by decide) ⟨6, false, 1200⟩ ⟨rfl, rfl, rfl⟩
  (by decide) ⟨1500, by decide⟩ ⟨1500, by decide⟩

end Verif.Spf
