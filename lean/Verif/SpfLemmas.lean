import Verif.SpfSpec
import Mathlib.Data.List.Perm.Subperm

/- Helper lemmas about the candidate list and the run. -/
namespace Verif.Spf

theorem Walk.cons {g : Graph} {s u v c w n : Nat} (h : Usable g s u c) (p : Walk g u v w n) :
    Walk g s v (c + w) (n + 1) := by
  induction p with
  | nil => simpa using Walk.step (Walk.nil) h
  | step _ hu ih => simpa [Nat.add_assoc] using Walk.step ih hu

theorem Walk.uncons {g : Graph} {s v w n : Nat} (p : Walk g s v w n) :
    (v = s ∧ w = 0 ∧ n = 0) ∨
      ∃ u c w' n', Usable g s u c ∧ Walk g u v w' n' ∧ w = c + w' ∧ n = n' + 1 := by
  induction p with
  | nil => exact Or.inl ⟨rfl, rfl, rfl⟩
  | @step a b w0 c0 n0 p hu ih =>
    refine Or.inr ?_
    rcases ih with ⟨h1, h2, h3⟩ | ⟨u, c, w', n', h1, h2, h3, h4⟩
    · subst h1; subst h2; subst h3
      exact ⟨b, c0, 0, 0, hu, Walk.nil, by omega, rfl⟩
    · exact ⟨u, c, w' + c0, n' + 1, h1, Walk.step h2 hu, by omega, by omega⟩

theorem hasEdge_iff (e : Nat → List Edge) (u v : Nat) :
    hasEdge e u v = true ↔ ∃ d, (⟨v, d⟩ : Edge) ∈ e u := by
  simp only [hasEdge, List.any_eq_true, beq_iff_eq]
  constructor
  · rintro ⟨⟨a, b⟩, h1, rfl⟩
    exact ⟨b, h1⟩
  · rintro ⟨d, h⟩
    exact ⟨_, h, rfl⟩

theorem usable_iff (g : Graph) (u : Nat) (ed : Edge) (h : ed ∈ g.edges u) :
    Usable g u ed.dest ed.cost ↔ hasEdge g.edges ed.dest u = true ∧ ed.cost < linkCostBroken := by
  rw [hasEdge_iff]
  exact ⟨fun h' => h'.2, fun h' => ⟨h, h'⟩⟩

/-! ### the candidate list -/

theorem mem_insertCand (x y : Nat × Nat) (l : List (Nat × Nat)) :
    y ∈ insertCand x l ↔ y = x ∨ y ∈ l := by
  induction l with
  | nil => simp [insertCand]
  | cons z l ih =>
    simp only [insertCand]
    split
    · simp only [List.mem_cons, ih]
      constructor
      · rintro (h | h | h) <;> simp [h]
      · rintro (h | h | h) <;> simp [h]
    · simp only [List.mem_cons]

theorem sorted_insertCand (x : Nat × Nat) (l : List (Nat × Nat))
    (h : l.Pairwise fun a b => a.1 ≤ b.1) : (insertCand x l).Pairwise fun a b => a.1 ≤ b.1 := by
  induction l with
  | nil => simp [insertCand]
  | cons z l ih =>
    rw [List.pairwise_cons] at h
    simp only [insertCand]
    split
    · rename_i hz
      rw [List.pairwise_cons]
      refine ⟨fun y hy => ?_, ih h.2⟩
      rcases (mem_insertCand x y l).1 hy with e | hm
      · rw [e]; exact hz
      · exact h.1 y hm
    · rename_i hz
      rw [List.pairwise_cons, List.pairwise_cons]
      refine ⟨fun y hy => ?_, h⟩
      rcases List.mem_cons.1 hy with e | hm
      · rw [e]; omega
      · have := h.1 y hm
        omega

theorem nodup_insertCand (x : Nat × Nat) (l : List (Nat × Nat))
    (h : (l.map (·.2)).Nodup) (hx : x.2 ∉ l.map (·.2)) : ((insertCand x l).map (·.2)).Nodup := by
  induction l with
  | nil => simp [insertCand]
  | cons z l ih =>
    simp only [List.map_cons, List.nodup_cons, List.mem_cons, not_or] at h hx
    simp only [insertCand]
    split
    · simp only [List.map_cons, List.nodup_cons]
      refine ⟨fun hm => ?_, ih h.2 hx.2⟩
      obtain ⟨y, hy, e⟩ := List.mem_map.1 hm
      rcases (mem_insertCand x y l).1 hy with e' | hm'
      · rw [e'] at e
        exact hx.1 e
      · exact h.1 (List.mem_map.2 ⟨y, hm', e⟩)
    · simp only [List.map_cons, List.nodup_cons, List.mem_cons, not_or]
      exact ⟨hx, h⟩

theorem deleteCand_some (n : Nat) (l : List (Nat × Nat)) (hn : (l.map (·.2)).Nodup)
    (h : n ∈ l.map (·.2)) :
    ∃ l', deleteCand n l = some l' ∧ l'.Sublist l ∧ ∀ y, y ∈ l' ↔ y ∈ l ∧ y.2 ≠ n := by
  induction l with
  | nil => simp at h
  | cons z l ih =>
    simp only [List.map_cons, List.nodup_cons] at hn
    by_cases hz : z.2 = n
    · refine ⟨l, by simp [deleteCand, hz], List.sublist_cons_self _ _, fun y => ?_⟩
      constructor
      · intro hy
        refine ⟨List.mem_cons_of_mem _ hy, fun e => hn.1 ?_⟩
        rw [hz, ← e]
        exact List.mem_map_of_mem hy
      · rintro ⟨hy, hne⟩
        rcases List.mem_cons.1 hy with e | hm
        · exact absurd (e ▸ hz) hne
        · exact hm
    · have h' : n ∈ l.map (·.2) := by
        simp only [List.map_cons, List.mem_cons] at h
        exact h.resolve_left (fun e => hz e.symm)
      obtain ⟨l', e, hs, hm⟩ := ih hn.2 h'
      refine ⟨z :: l', by simp [deleteCand, hz, e], hs.cons_cons z, fun y => ?_⟩
      rw [List.mem_cons, List.mem_cons, hm]
      constructor
      · rintro (e | ⟨h1, h2⟩)
        · exact ⟨Or.inl e, e ▸ hz⟩
        · exact ⟨Or.inr h1, h2⟩
      · rintro ⟨h1 | h1, h2⟩
        · exact Or.inl h1
        · exact Or.inr ⟨h1, h2⟩

/-! ### the invariant -/

/-- The first hop of a walk of cost `w` to `v` is a neighbour whose preset link
is `l`. -/
def FirstHop (g : Graph) (self : Nat) (preset : Nat → Option Nat) (v w l : Nat) : Prop :=
  ∃ n c w' k, Usable g self n c ∧ preset n = some l ∧ Walk g n v w' k ∧ w = c + w'

/-- Every usable link of this node leads to a node with a preset next hop. -/
def Preset (g : Graph) (self : Nat) (preset : Nat → Option Nat) : Prop :=
  preset self = none ∧ ∀ n c, Usable g self n c → ∃ l, preset n = some l

/-- What is fixed during a run. -/
structure Ctx where
  g : Graph
  self : Nat
  preset : Nat → Option Nat
  bound : Nat

/-- The side conditions. -/
structure Ctx.Ok (x : Ctx) : Prop where
  self_mem : x.self ∈ x.g.nodes
  dom : ∀ u, x.g.edges u ≠ [] → u ∈ x.g.nodes
  cost_le : ∀ u v c, Usable x.g u v c → c ≤ x.bound
  small : x.g.nodes.length * x.bound < routeCostBroken

/-- The invariant: `S` is the path list, `k` the number of links allowed by
the bound on the costs. -/
structure Inv (x : Ctx) (S : List Nat) (k : Nat) (s : St) : Prop where
  sorted : s.cand.Pairwise fun a b => a.1 ≤ b.1
  nodup : (s.cand.map (·.2)).Nodup
  key : ∀ y ∈ s.cand, y.1 = (s.vtx y.2).cost
  mem : ∀ v, v ∈ s.cand.map (·.2) ↔ (s.vtx v).cost < routeCostBroken ∧ v ∉ S
  fin : ∀ v, (s.vtx v).cost ≤ routeCostBroken
  walk : ∀ v, (s.vtx v).cost < routeCostBroken →
    ∃ n, Walk x.g x.self v (s.vtx v).cost n ∧ (s.vtx v).hops = n % 256
  bnd : ∀ v, (s.vtx v).cost < routeCostBroken → (s.vtx v).cost ≤ k * x.bound
  settled : ∀ u ∈ S, (s.vtx u).cost < routeCostBroken ∧ ∀ v, v ∉ S → (s.vtx u).cost ≤ (s.vtx v).cost
  closed : ∀ u ∈ S, ∀ v c, Usable x.g u v c → (s.vtx v).cost ≤ (s.vtx u).cost + c
  snodup : S.Nodup
  ssorted : S.Pairwise fun a b => (s.vtx a).cost ≤ (s.vtx b).cost
  self0 : (s.vtx x.self).cost = 0
  pre : Preset x.g x.self x.preset → x.self ∉ S → ∀ v, (s.vtx v).hop = x.preset v
  hop : Preset x.g x.self x.preset → (s.vtx x.self).hop = none ∧
    ∀ v, v ≠ x.self → (s.vtx v).cost < routeCostBroken →
      ∃ l, (s.vtx v).hop = some l ∧ FirstHop x.g x.self x.preset v (s.vtx v).cost l

theorem usable_mem {x : Ctx} (hx : x.Ok) {u v c : Nat} (h : Usable x.g u v c) : v ∈ x.g.nodes := by
  obtain ⟨_, ⟨d, hd⟩, _⟩ := h
  exact hx.dom v (List.ne_nil_of_mem hd)

theorem walk_mem {x : Ctx} (hx : x.Ok) {v w n : Nat} (h : Walk x.g x.self v w n) : v ∈ x.g.nodes := by
  cases h with
  | nil => exact hx.self_mem
  | step _ hu => exact usable_mem hx hu

theorem length_le_of_subset {S l : List Nat} (hn : S.Nodup) (h : ∀ v ∈ S, v ∈ l) :
    S.length ≤ l.length := by
  exact (List.subperm_of_subset hn h).length_le

/-- The state while the edges of `tc` are examined. -/
structure Rel (x : Ctx) (S : List Nat) (tc : Nat) (s : St) : Prop where
  inv : Inv x S (S.length + 1) s
  fresh : tc ∉ S
  fin : (s.vtx tc).cost < routeCostBroken
  bnd : (s.vtx tc).cost ≤ S.length * x.bound
  min : ∀ v, v ∉ S → (s.vtx tc).cost ≤ (s.vtx v).cost
  first : tc = x.self ∨ x.self ∈ S

theorem Rel.room {x : Ctx} (hx : x.Ok) {S : List Nat} {tc : Nat} {s : St} (h : Rel x S tc s) :
    S.length + 1 ≤ x.g.nodes.length := by
  have hn : (tc :: S).Nodup := List.nodup_cons.2 ⟨h.fresh, h.inv.snodup⟩
  have := length_le_of_subset (l := x.g.nodes) hn (by
    intro v hv
    have hc : (s.vtx v).cost < routeCostBroken := by
      rcases List.mem_cons.1 hv with e | hm
      · rw [e]; exact h.fin
      · exact (h.inv.settled v hm).1
    obtain ⟨n, hw, _⟩ := h.inv.walk v hc
    exact walk_mem hx hw)
  simpa using this

theorem put_same (f : Nat → Vtx) (n : Nat) (y : Vtx) : put f n y n = y := by simp [put]

theorem put_other (f : Nat → Vtx) (n m : Nat) (y : Vtx) (h : m ≠ n) : put f n y m = f m := by
  simp [put, h]

theorem relaxEdge_rel {x : Ctx} (hx : x.Ok) {S : List Nat} {tc : Nat} {s : St} (h : Rel x S tc s)
    (ed : Edge) (hed : ed ∈ x.g.edges tc) :
    ∃ s', relaxEdge x.g tc s ed = some s' ∧ Rel x S tc s' ∧ (s'.vtx tc).cost = (s.vtx tc).cost ∧
      (∀ v, (s'.vtx v).cost ≤ (s.vtx v).cost) ∧
      (Usable x.g tc ed.dest ed.cost → (s'.vtx ed.dest).cost ≤ (s.vtx tc).cost + ed.cost) := by
  have hu := usable_iff x.g tc ed hed
  unfold relaxEdge
  by_cases h1 : hasEdge x.g.edges ed.dest tc = false
  · rw [if_pos h1]
    refine ⟨s, rfl, h, rfl, fun v => Nat.le_refl _, fun hus => ?_⟩
    rw [hu, h1] at hus
    exact absurd hus.1 (by decide)
  rw [if_neg h1]
  by_cases h2 : linkCostBroken ≤ ed.cost
  · rw [if_pos h2]
    refine ⟨s, rfl, h, rfl, fun v => Nat.le_refl _, fun hus => ?_⟩
    rw [hu] at hus
    omega
  rw [if_neg h2]
  have hus : Usable x.g tc ed.dest ed.cost := hu.2 ⟨by simpa using h1, by omega⟩
  have hroom := h.room hx
  have hle := hx.cost_le _ _ _ hus
  have hmul : (S.length + 1) * x.bound ≤ x.g.nodes.length * x.bound := Nat.mul_le_mul_right _ hroom
  have hsum : (s.vtx tc).cost + ed.cost ≤ (S.length + 1) * x.bound := by
    have := h.bnd
    rw [Nat.add_mul, Nat.one_mul]
    omega
  have hsmall := hx.small
  have hlt : (s.vtx tc).cost + ed.cost < routeCostBroken := by omega
  have hmod : ((s.vtx tc).cost + ed.cost) % 4294967296 = (s.vtx tc).cost + ed.cost := by
    apply Nat.mod_eq_of_lt
    have : routeCostBroken = 4294967295 := rfl
    omega
  simp only [hmod]
  obtain ⟨n, hn⟩ : ∃ n, ed.dest = n := ⟨_, rfl⟩
  obtain ⟨c, hc⟩ : ∃ c, (s.vtx tc).cost + ed.cost = c := ⟨_, rfl⟩
  rw [hn] at hus ⊢
  rw [hc] at hsum hlt ⊢
  by_cases h3 : c < (s.vtx n).cost
  swap
  · rw [if_neg h3]
    exact ⟨s, rfl, h, rfl, fun v => Nat.le_refl _, fun _ => by omega⟩
  rw [if_pos h3]
  have hnS : n ∉ S := by
    intro hm
    have := (h.inv.settled n hm).2 tc h.fresh
    omega
  have hntc : n ≠ tc := by
    intro e
    rw [e] at h3
    omega
  have hnself : n ≠ x.self := by
    intro e
    rw [e, h.inv.self0] at h3
    omega
  -- the deletion is defined
  obtain ⟨l', hdel, hsub, hmem⟩ : ∃ l', (if (s.vtx n).cost < routeCostBroken then
      deleteCand n s.cand else some s.cand) = some l' ∧ l'.Sublist s.cand ∧
      ∀ y, y ∈ l' ↔ y ∈ s.cand ∧ y.2 ≠ n := by
    by_cases hb : (s.vtx n).cost < routeCostBroken
    · rw [if_pos hb]
      exact deleteCand_some n s.cand h.inv.nodup ((h.inv.mem n).2 ⟨hb, hnS⟩)
    · rw [if_neg hb]
      refine ⟨s.cand, rfl, List.Sublist.refl _, fun y => ⟨fun hy => ⟨hy, fun e => hb ?_⟩, fun hy => hy.1⟩⟩
      exact ((h.inv.mem n).1 (e ▸ List.mem_map_of_mem hy)).1
  rw [hdel]
  refine ⟨_, rfl, ?_⟩
  obtain ⟨nv, hnv⟩ : ∃ nv : Vtx, nv = Vtx.mk c
      (pullHop (s.vtx tc).hop (s.vtx n).hop)
      (((s.vtx tc).hops + 1) % 256) := ⟨_, rfl⟩
  simp only [← hnv]
  have hnvc : nv.cost = c := by rw [hnv]
  have hcost : ∀ v, (put s.vtx n nv v).cost = if v = n then c else (s.vtx v).cost := by
    intro v
    by_cases e : v = n
    · rw [if_pos e, e, put_same, hnvc]
    · rw [if_neg e, put_other _ _ _ _ e]
  have hcle : ∀ v, (put s.vtx n nv v).cost ≤ (s.vtx v).cost := by
    intro v
    rw [hcost]
    split
    · rename_i e; rw [e]; omega
    · exact Nat.le_refl _
  have htc : (put s.vtx n nv tc).cost = (s.vtx tc).cost := by
    rw [hcost, if_neg (fun e => hntc e.symm)]
  have hin : ∀ v ∈ S, (put s.vtx n nv v) = s.vtx v := fun v hv =>
    put_other _ _ _ _ (fun e => hnS (e ▸ hv))
  have hminc : ∀ v, v ∉ S → (s.vtx tc).cost ≤ (put s.vtx n nv v).cost := by
    intro v hv
    rw [hcost]
    split
    · omega
    · exact h.min v hv
  refine ⟨?_, htc, hcle, fun _ => ?_⟩
  swap
  · show (put s.vtx n nv n).cost ≤ _
    rw [put_same, hnvc]
    omega
  have hmemc : ∀ v, v ∈ (insertCand (c, n) l').map (·.2) ↔ v = n ∨ v ∈ s.cand.map (·.2) := by
    intro v
    simp only [List.mem_map, mem_insertCand]
    constructor
    · rintro ⟨y, hy | hy, e⟩
      · exact Or.inl (by rw [← e, hy])
      · exact Or.inr ⟨y, ((hmem y).1 hy).1, e⟩
    · rintro (e | ⟨y, hy, e⟩)
      · exact ⟨(c, n), Or.inl rfl, e.symm⟩
      · by_cases e' : v = n
        · exact ⟨(c, n), Or.inl rfl, e'.symm⟩
        · exact ⟨y, Or.inr ((hmem y).2 ⟨hy, by rw [e]; exact e'⟩), e⟩
  refine ⟨?_, h.fresh, by rw [htc]; exact h.fin, by rw [htc]; exact h.bnd,
    fun v hv => by rw [htc]; exact hminc v hv, h.first⟩
  constructor
  · exact sorted_insertCand _ _ (h.inv.sorted.sublist hsub)
  · apply nodup_insertCand
    · exact h.inv.nodup.sublist (hsub.map _)
    · intro hm
      obtain ⟨y, hy, e⟩ := List.mem_map.1 hm
      exact ((hmem y).1 hy).2 e
  · intro y hy
    show y.1 = (put s.vtx n nv y.2).cost
    rcases (mem_insertCand _ _ _).1 hy with e | hm
    · rw [e, put_same, hnvc]
    · rw [put_other _ _ _ _ ((hmem y).1 hm).2]
      exact h.inv.key y ((hmem y).1 hm).1
  · intro v
    show v ∈ (insertCand (c, n) l').map (·.2) ↔ (put s.vtx n nv v).cost < _ ∧ _
    rw [hmemc, hcost, h.inv.mem]
    by_cases e : v = n
    · rw [if_pos e]
      exact ⟨fun _ => ⟨hlt, e ▸ hnS⟩, fun _ => Or.inl e⟩
    · rw [if_neg e]
      exact ⟨fun h' => h'.resolve_left e, Or.inr⟩
  · intro v
    exact Nat.le_trans (hcle v) (h.inv.fin v)
  · intro v hv
    show ∃ m, Walk x.g x.self v (put s.vtx n nv v).cost m ∧ (put s.vtx n nv v).hops = _
    by_cases e : v = n
    · obtain ⟨m, hw, hm⟩ := h.inv.walk tc h.fin
      refine ⟨m + 1, ?_, ?_⟩
      · rw [e, put_same, hnvc, ← hc]
        exact Walk.step hw hus
      · rw [e, put_same, hnv]
        show ((s.vtx tc).hops + 1) % 256 = _
        rw [hm]
        omega
    · have hv' : (put s.vtx n nv v).cost < routeCostBroken := hv
      rw [put_other _ _ _ _ e] at hv' ⊢
      exact h.inv.walk v hv'
  · intro v hv
    have hv' : (put s.vtx n nv v).cost < routeCostBroken := hv
    show (put s.vtx n nv v).cost ≤ _
    by_cases e : v = n
    · rw [e, put_same, hnvc]
      exact hsum
    · rw [put_other _ _ _ _ e] at hv' ⊢
      exact h.inv.bnd v hv'
  · intro u hu'
    show (put s.vtx n nv u).cost < _ ∧ ∀ v, v ∉ S → (put s.vtx n nv u).cost ≤ (put s.vtx n nv v).cost
    rw [hin u hu']
    refine ⟨(h.inv.settled u hu').1, fun v hv => ?_⟩
    have h1 := (h.inv.settled u hu').2 tc h.fresh
    have h2 := hminc v hv
    omega
  · intro u hu' v d huse
    show (put s.vtx n nv v).cost ≤ (put s.vtx n nv u).cost + d
    rw [hin u hu']
    exact Nat.le_trans (hcle v) (h.inv.closed u hu' v d huse)
  · exact h.inv.snodup
  · apply h.inv.ssorted.imp_of_mem
    intro a b ha hb hab
    show (put s.vtx n nv a).cost ≤ (put s.vtx n nv b).cost
    rw [hin a ha, hin b hb]
    exact hab
  · show (put s.vtx n nv x.self).cost = 0
    rw [put_other _ _ _ _ (fun e => hnself e.symm)]
    exact h.inv.self0
  · intro hp hself v
    show (put s.vtx n nv v).hop = x.preset v
    by_cases e : v = n
    · have hts : tc = x.self := h.first.resolve_right hself
      have h0 : (s.vtx tc).hop = none := by rw [hts]; exact (h.inv.hop hp).1
      rw [e, put_same, hnv]
      simp only [pullHop, h0]
      exact h.inv.pre hp hself n
    · rw [put_other _ _ _ _ e]
      exact h.inv.pre hp hself v
  · intro hp
    show (put s.vtx n nv x.self).hop = none ∧ ∀ v, v ≠ x.self →
      (put s.vtx n nv v).cost < routeCostBroken → ∃ l, (put s.vtx n nv v).hop = some l ∧
        FirstHop x.g x.self x.preset v (put s.vtx n nv v).cost l
    refine ⟨by rw [put_other _ _ _ _ (fun e => hnself e.symm)]; exact (h.inv.hop hp).1, ?_⟩
    intro v hv hvc
    by_cases e : v = n
    · rw [e, put_same, hnvc]
      by_cases hts : tc = x.self
      · have h0 : (s.vtx tc).hop = none := by rw [hts]; exact (h.inv.hop hp).1
        have htcost : (s.vtx tc).cost = 0 := by rw [hts]; exact h.inv.self0
        rw [hts] at hus
        obtain ⟨l, hl⟩ := hp.2 n _ hus
        refine ⟨l, ?_, n, ed.cost, 0, 0, hus, hl, Walk.nil, by omega⟩
        rw [hnv]
        simp only [pullHop, h0]
        rw [h.inv.pre hp (hts ▸ h.fresh), hl]
      · obtain ⟨l, hl, m, d, w', k, hm, hml, hw, he⟩ := (h.inv.hop hp).2 tc hts h.fin
        refine ⟨l, ?_, m, d, w' + ed.cost, k + 1, hm, hml, Walk.step hw hus, by omega⟩
        rw [hnv]
        simp only [pullHop, hl]
    · rw [put_other _ _ _ _ e] at hvc ⊢
      exact (h.inv.hop hp).2 v hv hvc

theorem relax_rel {x : Ctx} (hx : x.Ok) {S : List Nat} {tc : Nat} (l : List Edge) :
    ∀ (s : St), Rel x S tc s → (∀ ed ∈ l, ed ∈ x.g.edges tc) →
    ∃ s', relax x.g tc l s = some s' ∧ Rel x S tc s' ∧ (s'.vtx tc).cost = (s.vtx tc).cost ∧
      (∀ v, (s'.vtx v).cost ≤ (s.vtx v).cost) ∧
      (∀ ed ∈ l, Usable x.g tc ed.dest ed.cost → (s'.vtx ed.dest).cost ≤ (s.vtx tc).cost + ed.cost) := by
  induction l with
  | nil => exact fun s h _ => ⟨s, rfl, h, rfl, fun _ => Nat.le_refl _, by simp⟩
  | cons ed l ih =>
    intro s h hl
    obtain ⟨s1, e1, r1, c1, m1, u1⟩ := relaxEdge_rel hx h ed (hl ed (by simp))
    obtain ⟨s2, e2, r2, c2, m2, u2⟩ := ih s1 r1 (fun ed' h' => hl ed' (List.mem_cons_of_mem _ h'))
    refine ⟨s2, by simp only [relax, e1, e2], r2, c2.trans c1,
      fun v => Nat.le_trans (m2 v) (m1 v), fun ed' hed' hus => ?_⟩
    rcases List.mem_cons.1 hed' with e | hm
    · rw [e] at hus ⊢
      exact Nat.le_trans (m2 _) (u1 hus)
    · have := u2 ed' hm hus
      omega

/-- One round of the run. -/
theorem round_inv {x : Ctx} (hx : x.Ok) {S : List Nat} {s : St} (h : Inv x S S.length s)
    (hf : (S = [] ∧ s.cand = [(0, x.self)]) ∨ x.self ∈ S) {k tc : Nat} {l : List (Nat × Nat)}
    (hc : s.cand = (k, tc) :: l) :
    ∃ s1 cand, relax x.g tc (x.g.edges tc) s = some s1 ∧ deleteCand tc s1.cand = some cand ∧
      Inv x (S ++ [tc]) (S ++ [tc]).length { s1 with cand := cand } ∧ x.self ∈ S ++ [tc] ∧
      S.length + 1 ≤ x.g.nodes.length := by
  have htc : tc ∈ s.cand.map (·.2) := by rw [hc]; simp
  have htc' := (h.mem tc).1 htc
  have hkey : k = (s.vtx tc).cost := h.key (k, tc) (by rw [hc]; simp)
  have hmin : ∀ v, v ∉ S → (s.vtx tc).cost ≤ (s.vtx v).cost := by
    intro v hv
    by_cases hb : (s.vtx v).cost < routeCostBroken
    · obtain ⟨y, hy, e⟩ := List.mem_map.1 ((h.mem v).2 ⟨hb, hv⟩)
      have hk := h.key y hy
      have hs := h.sorted
      rw [hc, List.pairwise_cons] at hs
      rw [hc] at hy
      rcases List.mem_cons.1 hy with e' | hm
      · rw [e'] at e
        have e : tc = v := e
        rw [e]
        exact Nat.le_refl _
      · have := hs.1 y hm
        rw [e] at hk
        have : k ≤ y.1 := this
        omega
    · omega
  have hr : Rel x S tc s := by
    refine ⟨⟨h.sorted, h.nodup, h.key, h.mem, h.fin, h.walk, ?_, h.settled, h.closed, h.snodup,
      h.ssorted, h.self0, h.pre, h.hop⟩, htc'.2, htc'.1, h.bnd tc htc'.1, hmin, ?_⟩
    · intro v hv
      exact Nat.le_trans (h.bnd v hv) (Nat.mul_le_mul_right _ (by omega))
    · rcases hf with ⟨h1, h2⟩ | h1
      · left
        rw [h2] at hc
        injection hc with h3 h4
        injection h3 with h5 h6
        exact h6.symm
      · exact Or.inr h1
  obtain ⟨s1, e1, r1, c1, m1, u1⟩ := relax_rel hx (x.g.edges tc) s hr (fun _ h => h)
  obtain ⟨cand, e2, hsub, hmem⟩ := deleteCand_some tc s1.cand r1.inv.nodup
    ((r1.inv.mem tc).2 ⟨r1.fin, r1.fresh⟩)
  refine ⟨s1, cand, e1, e2, ?_, ?_, r1.room hx⟩
  swap
  · rcases r1.first with e | hm
    · rw [e]; simp
    · simp [hm]
  have i := r1.inv
  constructor
  · exact i.sorted.sublist hsub
  · exact i.nodup.sublist (hsub.map _)
  · intro y hy
    exact i.key y ((hmem y).1 hy).1
  · intro v
    show v ∈ cand.map (·.2) ↔ (s1.vtx v).cost < _ ∧ _
    constructor
    · intro hv
      obtain ⟨y, hy, e⟩ := List.mem_map.1 hv
      have h1 := (hmem y).1 hy
      have h2 := (i.mem v).1 (e ▸ List.mem_map_of_mem h1.1)
      refine ⟨h2.1, fun hm => ?_⟩
      rcases List.mem_append.1 hm with h3 | h3
      · exact h2.2 h3
      · rw [List.mem_singleton] at h3
        exact h1.2 (e.trans h3)
    · rintro ⟨h1, h2⟩
      rw [List.mem_append, List.mem_singleton, not_or] at h2
      obtain ⟨y, hy, e⟩ := List.mem_map.1 ((i.mem v).2 ⟨h1, h2.1⟩)
      exact List.mem_map.2 ⟨y, (hmem y).2 ⟨hy, by rw [e]; exact h2.2⟩, e⟩
  · exact i.fin
  · exact i.walk
  · intro v hv
    rw [List.length_append]
    exact i.bnd v hv
  · intro u hu
    rcases List.mem_append.1 hu with h1 | h1
    · exact ⟨(i.settled u h1).1, fun v hv => (i.settled u h1).2 v (fun h' => hv (by simp [h']))⟩
    · rw [List.mem_singleton] at h1
      rw [h1]
      exact ⟨r1.fin, fun v hv => r1.min v (fun h' => hv (by simp [h']))⟩
  · intro u hu v c hus
    rcases List.mem_append.1 hu with h1 | h1
    · exact i.closed u h1 v c hus
    · rw [List.mem_singleton] at h1
      rw [h1] at hus ⊢
      have := u1 ⟨v, c⟩ hus.1 hus
      show (s1.vtx v).cost ≤ (s1.vtx tc).cost + c
      rw [c1]
      exact this
  · rw [List.nodup_append]
    refine ⟨i.snodup, by simp, fun a ha b hb => ?_⟩
    rw [List.mem_singleton] at hb
    intro e
    exact r1.fresh (hb ▸ e ▸ ha)
  · rw [List.pairwise_append]
    refine ⟨i.ssorted, by simp, fun a ha b hb => ?_⟩
    rw [List.mem_singleton] at hb
    rw [hb]
    exact (i.settled a ha).2 tc r1.fresh
  · exact i.self0
  · intro hp hs
    exact i.pre hp (fun h' => hs (by simp [h']))
  · exact i.hop

theorem run_inv {x : Ctx} (hx : x.Ok) (fuel : Nat) : ∀ (s : St) (S : List Nat),
    Inv x S S.length s → ((S = [] ∧ s.cand = [(0, x.self)]) ∨ x.self ∈ S) →
    x.g.nodes.length ≤ fuel + S.length →
    ∃ s' S', run x.g fuel s S = some (s', S') ∧ Inv x S' S'.length s' ∧ s'.cand = [] ∧ x.self ∈ S' := by
  induction fuel with
  | zero =>
    intro s S h hf hl
    cases hc : s.cand with
    | nil =>
      refine ⟨s, S, rfl, h, hc, ?_⟩
      rcases hf with ⟨_, h2⟩ | h1
      · rw [hc] at h2; cases h2
      · exact h1
    | cons y l =>
      obtain ⟨k, tc⟩ := y
      obtain ⟨_, _, _, _, _, _, h6⟩ := round_inv hx h hf hc
      omega
  | succ fuel ih =>
    intro s S h hf hl
    cases hc : s.cand with
    | nil =>
      refine ⟨s, S, by simp only [run, hc], h, hc, ?_⟩
      rcases hf with ⟨_, h2⟩ | h1
      · rw [hc] at h2; cases h2
      · exact h1
    | cons y l =>
      obtain ⟨k, tc⟩ := y
      obtain ⟨s1, cand, e1, e2, i, hm, _⟩ := round_inv hx h hf hc
      obtain ⟨s', S', e3, h3⟩ := ih { s1 with cand := cand } (S ++ [tc]) i (Or.inr hm)
        (by rw [List.length_append]; simp only [List.length_singleton]; omega)
      exact ⟨s', S', by simp only [run, hc, e1, e2, e3], h3⟩

theorem initial_inv (x : Ctx) : Inv x [] 0 (initial x.self x.preset) := by
  have hb : routeCostBroken = 4294967295 := rfl
  have hcost : ∀ v, ((initial x.self x.preset).vtx v).cost = if v = x.self then 0 else routeCostBroken :=
    fun _ => rfl
  have hfin : ∀ v, ((initial x.self x.preset).vtx v).cost < routeCostBroken → v = x.self := by
    intro v hv
    rw [hcost] at hv
    by_cases e : v = x.self
    · exact e
    · rw [if_neg e] at hv; omega
  have h0 : ((initial x.self x.preset).vtx x.self).cost = 0 := by rw [hcost, if_pos rfl]
  constructor
  · simp [initial]
  · simp [initial]
  · intro y hy
    simp only [initial, List.mem_singleton] at hy
    rw [hy]
    exact h0.symm
  · intro v
    constructor
    · intro hv
      simp only [initial, List.map_cons, List.map_nil, List.mem_singleton] at hv
      rw [hv, h0]
      exact ⟨by omega, by simp⟩
    · intro hv
      rw [hfin v hv.1]
      simp [initial]
  · intro v
    rw [hcost]
    split <;> omega
  · intro v hv
    rw [hfin v hv, h0]
    exact ⟨0, Walk.nil, rfl⟩
  · intro v hv
    rw [hfin v hv, h0]
    exact Nat.zero_le _
  · simp
  · simp
  · simp
  · simp
  · exact h0
  · exact fun _ _ _ => rfl
  · intro hp
    exact ⟨hp.1, fun v hv hc => absurd (hfin v hc) hv⟩

/-- What the invariant says at the end. -/
theorem final_dist {x : Ctx} {S : List Nat} {s : St} (h : Inv x S S.length s) (hc : s.cand = [])
    {v w n : Nat} (hw : Walk x.g x.self v w n) :
    (s.vtx v).cost ≤ w ∧ ((s.vtx v).cost < routeCostBroken → v ∈ S) := by
  have hmem : ∀ v, (s.vtx v).cost < routeCostBroken → v ∈ S := by
    intro v hv
    apply Classical.byContradiction
    intro hn
    have := (h.mem v).2 ⟨hv, hn⟩
    rw [hc] at this
    simp at this
  refine ⟨?_, hmem v⟩
  induction hw with
  | nil => rw [h.self0]; exact Nat.le_refl _
  | @step u v w c n p hu ih =>
    by_cases hb : (s.vtx u).cost < routeCostBroken
    · have := h.closed u (hmem u hb) v c hu
      omega
    · have := h.fin v
      omega

/-! ### the neighbour loop -/

theorem deleteEdge_mem (e : Nat → List Edge) (u v w : Nat) (ed : Edge) :
    ed ∈ deleteEdge e u v w ↔ ed ∈ e w ∧ (w = u → ed.dest ≠ v) := by
  unfold deleteEdge
  by_cases h : w = u
  · subst h
    simp [List.mem_filter]
  · simp [h]

theorem addEdge_mem (e : Nat → List Edge) (u w : Nat) (ed x : Edge) :
    x ∈ addEdge e u ed w ↔ x ∈ e w ∨ (w = u ∧ x = ed) := by
  unfold addEdge
  by_cases h : w = u
  · subst h
    simp
  · simp [h]

theorem updateEdge_mem (e : Nat → List Edge) (u v c w : Nat) (x : Edge) :
    x ∈ updateEdge e u v c w ↔
      if w = u ∧ x.dest = v then x.cost = c ∧ hasEdge e u v = true else x ∈ e w := by
  unfold updateEdge
  by_cases h : w = u
  · subst h
    simp only [true_and, if_true, List.mem_map]
    by_cases hd : x.dest = v
    · rw [if_pos hd]
      constructor
      · rintro ⟨a, ha, e⟩
        by_cases hav : a.dest = v
        · rw [if_pos hav] at e
          subst e
          exact ⟨rfl, (hasEdge_iff _ _ _).2 ⟨a.cost, by rw [← hav]; exact ha⟩⟩
        · rw [if_neg hav] at e
          subst e
          exact absurd hd hav
      · rintro ⟨h1, h2⟩
        obtain ⟨d, hm⟩ := (hasEdge_iff _ _ _).1 h2
        refine ⟨_, hm, ?_⟩
        rw [if_pos rfl]
        obtain ⟨xd, xc⟩ := x
        simp only at h1 hd
        rw [h1, hd]
    · rw [if_neg hd]
      constructor
      · rintro ⟨a, ha, e⟩
        by_cases hav : a.dest = v
        · rw [if_pos hav] at e
          subst e
          exact absurd hav hd
        · rw [if_neg hav] at e
          subst e
          exact ha
      · intro hx
        exact ⟨x, hx, if_neg hd⟩
  · simp [h]

/-- A step touches only the link from this node to that neighbour. -/
theorem nbrStep_frame (c : Cfg) (self : Nat) (a : (Nat → List Edge) × (Nat → Option Nat)) (n : Nbr) :
    (∀ w x, (w = self → x.dest ≠ n.addr) → (x ∈ (nbrStep c self a n).1 w ↔ x ∈ a.1 w)) ∧
    (∀ v, v ≠ n.addr → (nbrStep c self a n).2 v = a.2 v) := by
  have hdel : ∀ w x, (w = self → x.dest ≠ n.addr) →
      (x ∈ deleteEdge a.1 self n.addr w ↔ x ∈ a.1 w) := by
    intro w x h
    rw [deleteEdge_mem]
    exact ⟨fun h' => h'.1, fun h' => ⟨h', h⟩⟩
  unfold nbrStep
  split
  · exact ⟨hdel, fun _ _ => rfl⟩
  · split
    · exact ⟨hdel, fun _ _ => rfl⟩
    · split
      · exact ⟨hdel, fun _ _ => rfl⟩
      · rename_i l _ _
        have hed : ∀ w x, (w = self → x.dest ≠ n.addr) →
            (x ∈ (if hasEdge a.1 self n.addr = false then addEdge a.1 self ⟨n.addr, c.freshCost⟩
              else if c.lq = true then updateEdge a.1 self n.addr l.cost else a.1) w ↔ x ∈ a.1 w) := by
          intro w x h
          split
          · rw [addEdge_mem]
            exact ⟨fun h' => h'.resolve_right (fun h2 => h h2.1 (by rw [h2.2])), Or.inl⟩
          · split
            · rw [updateEdge_mem, if_neg (fun h2 => h h2.1 h2.2)]
            · exact Iff.rfl
        revert hed
        simp only
        generalize (if hasEdge a.1 self n.addr = false then addEdge a.1 self ⟨n.addr, c.freshCost⟩
              else if c.lq = true then updateEdge a.1 self n.addr l.cost else a.1) = E
        intro hed
        by_cases hi : hasEdge E n.addr self = true
        · rw [if_pos hi]
          exact ⟨hed, fun v hv => if_neg hv⟩
        · rw [if_neg hi]
          exact ⟨hed, fun v hv => rfl⟩

/-- What a step does to the link of a neighbour that is not usable. -/
theorem nbrStep_dead (c : Cfg) (self : Nat) (a : (Nat → List Edge) × (Nat → Option Nat)) (n : Nbr)
    (h : ¬ ∃ l, Live n l) :
    (∀ d, (⟨n.addr, d⟩ : Edge) ∉ (nbrStep c self a n).1 self) ∧
      (nbrStep c self a n).2 n.addr = a.2 n.addr := by
  have hdel : ∀ d, (⟨n.addr, d⟩ : Edge) ∉ deleteEdge a.1 self n.addr self := by
    intro d hm
    exact ((deleteEdge_mem _ _ _ _ _).1 hm).2 rfl rfl
  unfold nbrStep
  split
  · exact ⟨hdel, rfl⟩
  · rename_i hs
    split
    · exact ⟨hdel, rfl⟩
    · rename_i l hl
      split
      · exact ⟨hdel, rfl⟩
      · rename_i hlost
        exact absurd ⟨l, by simpa using hs, hl, by simpa using hlost⟩ h

/-- What a step does to the link of a usable neighbour. -/
theorem nbrStep_live (c : Cfg) (self : Nat) (a : (Nat → List Edge) × (Nat → Option Nat)) (n : Nbr)
    (l : Link) (h : Live n l) (hne : n.addr ≠ self) :
    (∀ d, (⟨n.addr, d⟩ : Edge) ∈ (nbrStep c self a n).1 self ↔
      if hasEdge a.1 self n.addr = false then d = c.freshCost
      else if c.lq = true then d = l.cost else (⟨n.addr, d⟩ : Edge) ∈ a.1 self) ∧
      (nbrStep c self a n).2 n.addr =
        if hasEdge a.1 n.addr self = true then some l.id else a.2 n.addr := by
  obtain ⟨h1, h2, h3⟩ := h
  unfold nbrStep
  rw [if_neg (by rw [h1]; decide), h2]
  simp only
  rw [if_neg (by rw [h3]; decide)]
  obtain ⟨E, hE⟩ : ∃ E, (if hasEdge a.1 self n.addr = false then addEdge a.1 self ⟨n.addr, c.freshCost⟩
      else if c.lq = true then updateEdge a.1 self n.addr l.cost else a.1) = E := ⟨_, rfl⟩
  rw [hE]
  have hmem : ∀ d, (⟨n.addr, d⟩ : Edge) ∈ E self ↔
      if hasEdge a.1 self n.addr = false then d = c.freshCost
      else if c.lq = true then d = l.cost else (⟨n.addr, d⟩ : Edge) ∈ a.1 self := by
    intro d
    rw [← hE]
    by_cases hh : hasEdge a.1 self n.addr = false
    · rw [if_pos hh, if_pos hh, addEdge_mem]
      constructor
      · rintro (hm | ⟨_, e⟩)
        · have := (hasEdge_iff a.1 self n.addr).2 ⟨d, hm⟩
          rw [hh] at this
          cases this
        · injection e
      · intro e
        exact Or.inr ⟨rfl, by rw [e]⟩
    · rw [if_neg hh, if_neg hh]
      by_cases hq : c.lq = true
      · rw [if_pos hq, if_pos hq, updateEdge_mem, if_pos ⟨rfl, rfl⟩]
        exact ⟨fun h' => h'.1, fun h' => ⟨h', by simpa using hh⟩⟩
      · rw [if_neg hq, if_neg hq]
  have hoth : hasEdge E n.addr self = hasEdge a.1 n.addr self := by
    have : E n.addr = a.1 n.addr := by
      rw [← hE]
      unfold addEdge updateEdge
      split
      · simp [hne]
      · split
        · simp [hne]
        · rfl
    unfold hasEdge
    rw [this]
  rw [hoth]
  by_cases hh : hasEdge a.1 n.addr self = true
  · rw [if_pos hh, if_pos hh]
    exact ⟨hmem, if_pos rfl⟩
  · rw [if_neg hh, if_neg hh]
    exact ⟨hmem, rfl⟩

theorem nbrFold_frame (c : Cfg) (self : Nat) (nbrs : List Nbr) :
    ∀ (a : (Nat → List Edge) × (Nat → Option Nat)),
    (∀ w x, (w = self → x.dest ∉ nbrs.map (·.addr)) →
      (x ∈ (nbrs.foldl (nbrStep c self) a).1 w ↔ x ∈ a.1 w)) ∧
    (∀ v, v ∉ nbrs.map (·.addr) → (nbrs.foldl (nbrStep c self) a).2 v = a.2 v) := by
  induction nbrs with
  | nil => exact fun a => ⟨fun _ _ _ => Iff.rfl, fun _ _ => rfl⟩
  | cons n l ih =>
    intro a
    obtain ⟨h1, h2⟩ := nbrStep_frame c self a n
    obtain ⟨h3, h4⟩ := ih (nbrStep c self a n)
    rw [List.foldl_cons]
    constructor
    · intro w x h
      rw [h3 w x (fun e hm => h e (by rw [List.map_cons]; exact List.mem_cons_of_mem _ hm))]
      exact h1 w x (fun e hm => h e (by rw [List.map_cons, hm]; exact List.mem_cons_self))
    · intro v hv
      rw [List.map_cons, List.mem_cons, not_or] at hv
      rw [h4 v hv.2, h2 v hv.1]

/-- The situation just before and just after the step of one neighbour. -/
theorem nbrLoop_split (c : Cfg) (self : Nat) (e : Nat → List Edge) (nbrs : List Nbr)
    (hnd : (nbrs.map (·.addr)).Nodup) (n : Nbr) (hn : n ∈ nbrs) :
    ∃ a : (Nat → List Edge) × (Nat → Option Nat),
      (∀ w x, (w = self → x.dest = n.addr) → (x ∈ a.1 w ↔ x ∈ e w)) ∧ a.2 n.addr = none ∧
      (∀ w x, (w = self → x.dest = n.addr) →
        (x ∈ (nbrLoop c self e nbrs).1 w ↔ x ∈ (nbrStep c self a n).1 w)) ∧
      (nbrLoop c self e nbrs).2 n.addr = (nbrStep c self a n).2 n.addr := by
  obtain ⟨l1, l2, rfl⟩ := List.append_of_mem hn
  rw [List.map_append, List.map_cons, List.nodup_append, List.nodup_cons] at hnd
  obtain ⟨_, ⟨hn2, _⟩, hn1⟩ := hnd
  have hn1' : n.addr ∉ l1.map (·.addr) := fun h => hn1 _ h _ List.mem_cons_self rfl
  obtain ⟨f1, f2⟩ := nbrFold_frame c self l1 (e, fun _ => none)
  refine ⟨l1.foldl (nbrStep c self) (e, fun _ => none), ?_, f2 _ hn1', ?_, ?_⟩
  · intro w x h
    exact f1 w x (fun e' => by rw [h e']; exact hn1')
  · intro w x h
    unfold nbrLoop
    rw [List.foldl_append, List.foldl_cons]
    exact (nbrFold_frame c self l2 _).1 w x (fun e' => by rw [h e']; exact hn2)
  · unfold nbrLoop
    rw [List.foldl_append, List.foldl_cons]
    exact (nbrFold_frame c self l2 _).2 _ hn2

/-- The links of a neighbour that is not usable are gone after the loop. -/
theorem nbrLoop_dead (c : Cfg) (self : Nat) (e : Nat → List Edge) (nbrs : List Nbr)
    (hnd : (nbrs.map (·.addr)).Nodup) (n : Nbr) (hn : n ∈ nbrs) (h : ¬ ∃ l, Live n l) (d : Nat) :
    (⟨n.addr, d⟩ : Edge) ∉ (nbrLoop c self e nbrs).1 self := by
  obtain ⟨a, _, _, h3, _⟩ := nbrLoop_split c self e nbrs hnd n hn
  rw [h3 self ⟨n.addr, d⟩ (fun _ => rfl)]
  exact (nbrStep_dead c self a n h).1 d

theorem hasEdge_congr (e f : Nat → List Edge) (u v : Nat)
    (h : ∀ d, (⟨v, d⟩ : Edge) ∈ e u ↔ (⟨v, d⟩ : Edge) ∈ f u) : hasEdge e u v = hasEdge f u v := by
  rw [Bool.eq_iff_iff, hasEdge_iff, hasEdge_iff]
  exact ⟨fun ⟨d, hd⟩ => ⟨d, (h d).1 hd⟩, fun ⟨d, hd⟩ => ⟨d, (h d).2 hd⟩⟩

theorem nbrLoop_live (c : Cfg) (self : Nat) (e : Nat → List Edge) (nbrs : List Nbr)
    (hnd : (nbrs.map (·.addr)).Nodup) (n : Nbr) (hn : n ∈ nbrs) (l : Link) (h : Live n l)
    (hne : n.addr ≠ self) :
    (∀ d, (⟨n.addr, d⟩ : Edge) ∈ (nbrLoop c self e nbrs).1 self ↔
      if hasEdge e self n.addr = false then d = c.freshCost
      else if c.lq = true then d = l.cost else (⟨n.addr, d⟩ : Edge) ∈ e self) ∧
      (nbrLoop c self e nbrs).2 n.addr = if hasEdge e n.addr self = true then some l.id else none := by
  obtain ⟨a, h1, h2, h3, h4⟩ := nbrLoop_split c self e nbrs hnd n hn
  obtain ⟨h5, h6⟩ := nbrStep_live c self a n l h hne
  have ha : hasEdge a.1 self n.addr = hasEdge e self n.addr :=
    hasEdge_congr _ _ _ _ (fun d => h1 self ⟨n.addr, d⟩ (fun _ => rfl))
  have hb : hasEdge a.1 n.addr self = hasEdge e n.addr self :=
    hasEdge_congr _ _ _ _ (fun d => h1 n.addr ⟨self, d⟩ (fun e' => absurd e' hne))
  constructor
  · intro d
    rw [h3 self ⟨n.addr, d⟩ (fun _ => rfl), h5 d, ha, h1 self ⟨n.addr, d⟩ (fun _ => rfl)]
  · rw [h4, h6, hb, h2]

theorem nbrLoop_other (c : Cfg) (self : Nat) (e : Nat → List Edge) (nbrs : List Nbr) :
    (∀ w x, (w = self → x.dest ∉ nbrs.map (·.addr)) →
      (x ∈ (nbrLoop c self e nbrs).1 w ↔ x ∈ e w)) ∧
    (∀ v, v ∉ nbrs.map (·.addr) → (nbrLoop c self e nbrs).2 v = none) :=
  nbrFold_frame c self nbrs (e, fun _ => none)

end Verif.Spf
