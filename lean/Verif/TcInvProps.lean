import Verif.TcInvModel
/-!
# C64, C65: inverse edges, and the own entry of the topology set
-/
namespace Verif.TcInv

/-! ### Specification -/

/-- `f` is a live edge in the opposite direction of `e`: it belongs to the entry of the destination of
`e`, and its destination is the address of the entry of `e`. -/
def Opposite (s : St) (e : Edge) (f : Nat) : Prop :=
  ∃ g, s.edge f = some g ∧ s.ent g.owner = some e.dest ∧ s.ent e.owner = some g.dest

/-! ### The invariant -/

/-- What holds in every reachable state. -/
private structure Inv (s : St) : Prop where
  eF : ∀ i a, s.ent i = some a → i < s.nEnt
  dF : ∀ k e, s.edge k = some e → k < s.nEdge
  tr : ∀ a i, s.tree a = some i ↔ s.ent i = some a
  ow : ∀ k e, s.edge k = some e → ∃ a, s.ent e.owner = some a
  un : ∀ k l e g, s.edge k = some e → s.edge l = some g → e.owner = g.owner → e.dest = g.dest → k = l
  iv : ∀ k e, s.edge k = some e → ∀ f, e.inv = some f ↔ Opposite s e f
  me : ∀ i, s.me = some i → s.ent i = some s.main ∧ s.main ≠ 0
  mn : s.me = none → ∀ i, s.ent i ≠ some s.main
  mz : s.main = 0 → ∀ i, s.ent i = none

private theorem upd_same {α : Type} (f : Nat → α) (i : Nat) (v : α) : upd f i v i = v := if_pos rfl

private theorem upd_ne {α : Type} (f : Nat → α) {i j : Nat} (v : α) (h : j ≠ i) : upd f i v j = f j :=
  if_neg h

private theorem ent_inj {s : St} (h : Inv s) {i j a : Nat} (hi : s.ent i = some a)
    (hj : s.ent j = some a) : i = j := by
  have h1 := (h.tr a i).2 hi
  have h2 := (h.tr a j).2 hj
  rw [h1] at h2
  exact Option.some.inj h2

private theorem lookup_some {s : St} {i d k : Nat} (h : lookupEdge s i d = some k) :
    ∃ e, s.edge k = some e ∧ e.owner = i ∧ e.dest = d := by
  have := List.find?_some h
  unfold isEdge at this
  split at this
  · cases this
  · rename_i e he
    rw [Bool.and_eq_true, beq_iff_eq, beq_iff_eq] at this
    exact ⟨e, he, this.1, this.2⟩

private theorem lookup_none {s : St} (hd : ∀ k e, s.edge k = some e → k < s.nEdge) {i d : Nat}
    (h : lookupEdge s i d = none) {k : Nat} {e : Edge} (he : s.edge k = some e) (ho : e.owner = i)
    (hde : e.dest = d) : False := by
  have := List.find?_eq_none.1 h k (List.mem_range.2 (hd k e he))
  apply this
  unfold isEdge
  rw [he]
  simp [ho, hde]

/-! ### Adding and deleting edges -/

private theorem opp_symm {s : St} {k f : Nat} {e g : Edge} (hk : s.edge k = some e)
    (hf : s.edge f = some g) (h : Opposite s e f) : Opposite s g k := by
  obtain ⟨g', h1, h2, h3⟩ := h
  rw [hf] at h1
  cases h1
  exact ⟨e, hk, h3, h2⟩

/-- An edge number that is deleted, with the pointer to it cleared. -/
private theorem delEdge_inv {s : St} (h : Inv s) {k : Nat} {e : Edge} (hk : s.edge k = some e) :
    ∃ s', delEdge s k = .ok s' ∧ Inv s' ∧ s'.ent = s.ent ∧ s'.tree = s.tree ∧ s'.me = s.me ∧
      s'.main = s.main ∧ s'.nEnt = s.nEnt ∧ s'.nEdge = s.nEdge ∧ s'.edge k = none ∧
      (∀ m g, s'.edge m = some g → ∃ g0, s.edge m = some g0 ∧ g0.owner = g.owner ∧ g0.dest = g.dest) ∧
      (∀ m g0, m ≠ k → s.edge m = some g0 →
        ∃ g, s'.edge m = some g ∧ g.owner = g0.owner ∧ g.dest = g0.dest) := by
  obtain ⟨a, ha⟩ := h.ow k e hk
  unfold delEdge
  rw [hk]
  simp only
  rw [ha]
  simp only
  cases hinv : e.inv with
  | none =>
    simp only
    have hsub : ∀ m g, upd s.edge k none m = some g → s.edge m = some g ∧ m ≠ k := by
      intro m g hm
      by_cases hmk : m = k
      · rw [hmk, upd_same] at hm; cases hm
      · rw [upd_ne _ _ hmk] at hm; exact ⟨hm, hmk⟩
    refine ⟨_, rfl, ?_, rfl, rfl, rfl, rfl, rfl, rfl, upd_same .., ?_, ?_⟩
    · refine ⟨h.eF, fun m g hm => h.dF m g (hsub m g hm).1, h.tr,
        fun m g hm => h.ow m g (hsub m g hm).1,
        fun m l g g' hm hl => h.un m l g g' (hsub m g hm).1 (hsub l g' hl).1, ?_, h.me, h.mn, h.mz⟩
      intro m g hm f
      have hm' := hsub m g hm
      rw [h.iv m g hm'.1 f]
      constructor
      · rintro ⟨g', h1, h2, h3⟩
        refine ⟨g', ?_, h2, h3⟩
        show upd s.edge k none f = _
        rw [upd_ne _ _ ?_]
        · exact h1
        · intro hfk
          subst hfk
          have : g' = e := by rw [hk] at h1; exact (Option.some.inj h1).symm
          subst this
          have := (h.iv f g' hk m).2 ⟨g, hm'.1, h3, h2⟩
          rw [hinv] at this
          cases this
      · rintro ⟨g', h1, h2, h3⟩
        exact ⟨g', (hsub f g' h1).1, h2, h3⟩
    · intro m g hm
      exact ⟨g, (hsub m g hm).1, rfl, rfl⟩
    · intro m g hmk hm
      exact ⟨g, by show upd s.edge k none m = _; rw [upd_ne _ _ hmk]; exact hm, rfl, rfl⟩
  | some f =>
    simp only
    obtain ⟨g, hg1, hg2, hg3⟩ := (h.iv k e hk f).1 hinv
    rw [hg1]
    simp only
    have hset : (setInv s f none).edge = upd s.edge f (some { g with inv := none }) := by
      unfold setInv; rw [hg1]
    rw [hset]
    have hsub : ∀ m x, upd (upd s.edge f (some { g with inv := none })) k none m = some x →
        m ≠ k ∧ ((m = f ∧ x = { g with inv := none }) ∨ (m ≠ f ∧ s.edge m = some x)) := by
      intro m x hm
      by_cases hmk : m = k
      · rw [hmk, upd_same] at hm; cases hm
      · rw [upd_ne _ _ hmk] at hm
        refine ⟨hmk, ?_⟩
        by_cases hmf : m = f
        · rw [hmf, upd_same] at hm
          exact Or.inl ⟨hmf, (Option.some.inj hm).symm⟩
        · rw [upd_ne _ _ hmf] at hm
          exact Or.inr ⟨hmf, hm⟩
    have hold : ∀ m x, upd (upd s.edge f (some { g with inv := none })) k none m = some x →
        ∃ x0, s.edge m = some x0 ∧ x0.owner = x.owner ∧ x0.dest = x.dest := by
      intro m x hm
      rcases (hsub m x hm).2 with ⟨rfl, rfl⟩ | ⟨_, hx⟩
      · exact ⟨g, hg1, rfl, rfl⟩
      · exact ⟨x, hx, rfl, rfl⟩
    have hnew : ∀ m x0, m ≠ k → s.edge m = some x0 →
        ∃ x, upd (upd s.edge f (some { g with inv := none })) k none m = some x ∧
          x.owner = x0.owner ∧ x.dest = x0.dest := by
      intro m x0 hmk hm
      rw [upd_ne _ _ hmk]
      by_cases hmf : m = f
      · subst hmf
        rw [hg1] at hm
        cases hm
        exact ⟨_, upd_same .., rfl, rfl⟩
      · exact ⟨x0, by rw [upd_ne _ _ hmf]; exact hm, rfl, rfl⟩
    refine ⟨_, rfl, ?_, rfl, rfl, rfl, rfl, rfl, rfl, upd_same .., hold, hnew⟩
    refine ⟨h.eF, ?_, h.tr, ?_, ?_, ?_, h.me, h.mn, h.mz⟩
    · intro m x hm
      obtain ⟨x0, hx0, _⟩ := hold m x hm
      exact h.dF m x0 hx0
    · intro m x hm
      obtain ⟨x0, hx0, ho, _⟩ := hold m x hm
      rw [← ho]
      exact h.ow m x0 hx0
    · intro m l x y hm hl ho hd
      obtain ⟨x0, hx0, hxo, hxd⟩ := hold m x hm
      obtain ⟨y0, hy0, hyo, hyd⟩ := hold l y hl
      exact h.un m l x0 y0 hx0 hy0 (by rw [hxo, hyo, ho]) (by rw [hxd, hyd, hd])
    · intro m x hm z
      obtain ⟨hmk, hcase⟩ := hsub m x hm
      rcases hcase with ⟨rfl, rfl⟩ | ⟨hmf, hx⟩
      · refine iff_of_false (fun h => by cases h) ?_
        rintro ⟨y, hy1, hy2, hy3⟩
        obtain ⟨y0, hy0, hyo, hyd⟩ := hold z y hy1
        have h1 := (h.iv m g hg1 z).2 ⟨y0, hy0, by rw [hyo]; exact hy2, by rw [hyd]; exact hy3⟩
        have h2 := (h.iv m g hg1 k).2 ⟨e, hk, hg3, hg2⟩
        rw [h1] at h2
        cases h2
        exact (hsub k y hy1).1 rfl
      · rw [h.iv m x hx z]
        constructor
        · rintro ⟨y, hy1, hy2, hy3⟩
          by_cases hzk : z = k
          · subst hzk
            rw [hk] at hy1
            cases hy1
            have := (h.iv z e hk m).2 ⟨x, hx, hy3, hy2⟩
            rw [hinv] at this
            cases this
            exact absurd rfl hmf
          · obtain ⟨y', hy', ho, hd⟩ := hnew z y hzk hy1
            exact ⟨y', hy', by rw [ho]; exact hy2, by rw [hd]; exact hy3⟩
        · rintro ⟨y, hy1, hy2, hy3⟩
          obtain ⟨y0, hy0, ho, hd⟩ := hold z y hy1
          exact ⟨y0, hy0, by rw [ho]; exact hy2, by rw [hd]; exact hy3⟩

private theorem setInv_edge (s : St) (k : Nat) (v : Option Nat) (m : Nat) :
    (setInv s k v).edge m = if m = k then (s.edge k).map (fun e => { e with inv := v })
      else s.edge m := by
  unfold setInv
  cases h : s.edge k with
  | none =>
    simp only
    split
    · rename_i hm; rw [hm, h]; rfl
    · rfl
  | some e => rfl

private theorem setInv_rest (s : St) (k : Nat) (v : Option Nat) :
    (setInv s k v).ent = s.ent ∧ (setInv s k v).tree = s.tree ∧ (setInv s k v).me = s.me ∧
      (setInv s k v).main = s.main ∧ (setInv s k v).nEnt = s.nEnt ∧ (setInv s k v).nEdge = s.nEdge := by
  unfold setInv
  cases s.edge k <;> exact ⟨rfl, rfl, rfl, rfl, rfl, rfl⟩

/-- Adding an edge that is not there keeps the invariant. -/
private theorem addEdge_inv {s : St} (h : Inv s) {i d a : Nat} (hi : s.ent i = some a)
    (hno : lookupEdge s i d = none) :
    ∃ s', addEdge s i d = .ok s' ∧ Inv s' := by
  have hfresh : s.edge s.nEdge = none := by
    cases hx : s.edge s.nEdge with
    | none => rfl
    | some e => exact absurd (h.dF _ _ hx) (Nat.lt_irrefl _)
  have hedge : ∀ m, (newEdge s i d).edge m = if m = s.nEdge then some ⟨i, d, none⟩ else s.edge m :=
    fun m => rfl
  have hcases : ∀ m x, (newEdge s i d).edge m = some x →
      (m = s.nEdge ∧ x = ⟨i, d, none⟩) ∨ (m ≠ s.nEdge ∧ s.edge m = some x) := by
    intro m x hm
    rw [hedge] at hm
    split at hm
    · rename_i hmn; exact Or.inl ⟨hmn, (Option.some.inj hm).symm⟩
    · rename_i hmn; exact Or.inr ⟨hmn, hm⟩
  have hdF : ∀ k e, (newEdge s i d).edge k = some e → k < (newEdge s i d).nEdge := by
    intro m x hm
    show m < s.nEdge + 1
    rcases hcases m x hm with ⟨rfl, _⟩ | ⟨_, hx⟩
    · exact Nat.lt_succ_self _
    · exact Nat.lt_succ_of_lt (h.dF m x hx)
  have how : ∀ k e, (newEdge s i d).edge k = some e → ∃ b, s.ent e.owner = some b := by
    intro m x hm
    rcases hcases m x hm with ⟨_, rfl⟩ | ⟨_, hx⟩
    · exact ⟨a, hi⟩
    · exact h.ow m x hx
  have hun : ∀ k l e g, (newEdge s i d).edge k = some e → (newEdge s i d).edge l = some g →
      e.owner = g.owner → e.dest = g.dest → k = l := by
    intro m l x y hm hl ho hd
    rcases hcases m x hm with ⟨rfl, rfl⟩ | ⟨_, hx⟩
    · rcases hcases l y hl with ⟨rfl, rfl⟩ | ⟨_, hy⟩
      · rfl
      · exact (lookup_none h.dF hno hy ho.symm hd.symm).elim
    · rcases hcases l y hl with ⟨rfl, rfl⟩ | ⟨_, hy⟩
      · exact (lookup_none h.dF hno hx ho hd).elim
      · exact h.un m l x y hx hy ho hd
  -- when the new edge has no opposite
  have alone : (∀ f g, (newEdge s i d).edge f = some g → s.ent g.owner = some d → g.dest = a → False) →
      Inv (newEdge s i d) := by
    intro hal
    refine ⟨h.eF, hdF, h.tr, how, hun, ?_, h.me, h.mn, h.mz⟩
    intro m x hm z
    rcases hcases m x hm with ⟨rfl, rfl⟩ | ⟨hmn, hx⟩
    · refine iff_of_false (fun h => by cases h) ?_
      rintro ⟨y, hy1, hy2, hy3⟩
      refine hal z y hy1 hy2 ?_
      have h3 : s.ent i = some y.dest := hy3
      rw [hi] at h3
      exact (Option.some.inj h3).symm
    · rw [h.iv m x hx z]
      constructor
      · rintro ⟨y, hy1, hy2, hy3⟩
        refine ⟨y, ?_, hy2, hy3⟩
        rw [hedge, if_neg (by intro hz; rw [hz, hfresh] at hy1; cases hy1)]
        exact hy1
      · rintro ⟨y, hy1, hy2, hy3⟩
        rcases hcases z y hy1 with ⟨rfl, rfl⟩ | ⟨_, hy⟩
        · have h2 : s.ent i = some x.dest := hy2
          rw [hi] at h2
          exact (hal m x hm hy3 (Option.some.inj h2).symm).elim
        · exact ⟨y, hy, hy2, hy3⟩
  unfold addEdge
  rw [hi]
  simp only
  cases ht : (newEdge s i d).tree d with
  | none =>
    refine ⟨_, rfl, alone ?_⟩
    intro f g _ h2 _
    have := (h.tr d g.owner).2 h2
    have ht' : s.tree d = none := ht
    rw [this] at ht'
    cases ht'
  | some j =>
    have hj : s.ent j = some d := (h.tr d j).1 ht
    simp only
    rw [hj]
    simp only
    cases hl : lookupEdge (newEdge s i d) j a with
    | none =>
      refine ⟨_, rfl, alone ?_⟩
      intro f g h1 h2 h3
      exact lookup_none hdF hl h1 (ent_inj h h2 hj) h3
    | some f =>
      refine ⟨_, rfl, ?_⟩
      obtain ⟨g, hg1, hg2, hg3⟩ := lookup_some hl
      obtain ⟨S, hS⟩ : ∃ S, setInv (setInv (newEdge s i d) f (some s.nEdge)) s.nEdge (some f) = S :=
        ⟨_, rfl⟩
      rw [hS]
      have r1 := setInv_rest (newEdge s i d) f (some s.nEdge)
      have r2 := setInv_rest (setInv (newEdge s i d) f (some s.nEdge)) s.nEdge (some f)
      rw [hS] at r2
      have rent : S.ent = s.ent := r2.1.trans r1.1
      have rtree : S.tree = s.tree := r2.2.1.trans r1.2.1
      have rme : S.me = s.me := r2.2.2.1.trans r1.2.2.1
      have rmain : S.main = s.main := r2.2.2.2.1.trans r1.2.2.2.1
      have rn : S.nEnt = s.nEnt := r2.2.2.2.2.1.trans r1.2.2.2.2.1
      have rd : S.nEdge = (newEdge s i d).nEdge := r2.2.2.2.2.2.trans r1.2.2.2.2.2
      -- the edges of the result
      have hk0 : (newEdge s i d).edge s.nEdge = some ⟨i, d, none⟩ := by rw [hedge, if_pos rfl]
      have hSk : S.edge s.nEdge = some ⟨i, d, some f⟩ := by
        rw [← hS, setInv_edge, if_pos rfl, setInv_edge]
        split
        · rename_i hf
          rw [← hf, hk0]
          rfl
        · rw [hk0]; rfl
      have hSf : f ≠ s.nEdge → S.edge f = some { g with inv := some s.nEdge } := by
        intro hf
        rw [← hS, setInv_edge, if_neg hf, setInv_edge, if_pos rfl, hg1]
        rfl
      have hSm : ∀ m, m ≠ s.nEdge → m ≠ f → S.edge m = s.edge m := by
        intro m h1 h2
        rw [← hS, setInv_edge, if_neg h1, setInv_edge, if_neg h2, hedge, if_neg h1]
      have hold : ∀ m x, S.edge m = some x →
          ∃ x0, (newEdge s i d).edge m = some x0 ∧ x0.owner = x.owner ∧ x0.dest = x.dest := by
        intro m x hm
        by_cases h1 : m = s.nEdge
        · subst h1
          rw [hSk] at hm
          cases hm
          exact ⟨_, hk0, rfl, rfl⟩
        · by_cases h2 : m = f
          · subst h2
            rw [hSf h1] at hm
            cases hm
            exact ⟨g, hg1, rfl, rfl⟩
          · rw [hSm m h1 h2] at hm
            exact ⟨x, by rw [hedge, if_neg h1]; exact hm, rfl, rfl⟩
      have hun' : ∀ k l e g, S.edge k = some e → S.edge l = some g →
          e.owner = g.owner → e.dest = g.dest → k = l := by
        intro m l x y hm hl ho hd
        obtain ⟨x0, hx0, hxo, hxd⟩ := hold m x hm
        obtain ⟨y0, hy0, hyo, hyd⟩ := hold l y hl
        exact hun m l x0 y0 hx0 hy0 (by rw [hxo, hyo, ho]) (by rw [hxd, hyd, hd])
      have hSf' : ∃ gf, S.edge f = some gf ∧ gf.owner = j ∧ gf.dest = a := by
        by_cases hf : f = s.nEdge
        · subst hf
          rw [hk0] at hg1
          cases hg1
          exact ⟨_, hSk, hg2, hg3⟩
        · exact ⟨_, hSf hf, hg2, hg3⟩
      obtain ⟨gf, hgf, hgfo, hgfd⟩ := hSf'
      -- the opposite of the new edge is f, and the other way round
      have oppk : ∀ z, Opposite S ⟨i, d, some f⟩ z ↔ z = f := by
        intro z
        constructor
        · rintro ⟨y, hy1, hy2, hy3⟩
          rw [rent] at hy2 hy3
          refine hun' z f y gf hy1 hgf ?_ ?_
          · rw [hgfo]; exact ent_inj h hy2 hj
          · have h3 : s.ent i = some y.dest := hy3
            rw [hi] at h3
            rw [hgfd]
            exact (Option.some.inj h3).symm
        · rintro rfl
          exact ⟨gf, hgf, by rw [rent, hgfo]; exact hj, by rw [rent, hgfd]; exact hi⟩
      refine ⟨by rw [rent, rn]; exact h.eF, ?_, by rw [rent, rtree]; exact h.tr, ?_, hun', ?_,
        by rw [rme, rent, rmain]; exact h.me, by rw [rme, rent, rmain]; exact h.mn,
        by rw [rent, rmain]; exact h.mz⟩
      · intro m x hm
        obtain ⟨x0, hx0, _⟩ := hold m x hm
        rw [rd]
        exact hdF m x0 hx0
      · intro m x hm
        obtain ⟨x0, hx0, ho, _⟩ := hold m x hm
        rw [rent, ← ho]
        exact how m x0 hx0
      · intro m x hm z
        by_cases h1 : m = s.nEdge
        · subst h1
          rw [hSk] at hm
          cases hm
          rw [oppk]
          constructor
          · intro hz; exact (Option.some.inj hz).symm
          · intro hz; rw [hz]
        · by_cases h2 : m = f
          · subst h2
            rw [hSf h1] at hm
            cases hm
            have hfk : Opposite S { g with inv := some s.nEdge } s.nEdge :=
              ⟨_, hSk, by rw [rent]; show s.ent i = some g.dest; rw [hg3]; exact hi,
                by rw [rent]; show s.ent g.owner = some d; rw [hg2]; exact hj⟩
            constructor
            · intro hz
              cases hz
              exact hfk
            · rintro ⟨y, hy1, hy2, hy3⟩
              obtain ⟨y', hy1', hy2', hy3'⟩ := hfk
              rw [rent] at hy2 hy3 hy2' hy3'
              have : z = s.nEdge := hun' z s.nEdge y y' hy1 hy1' (ent_inj h hy2 hy2') (by
                rw [hy3] at hy3'; exact Option.some.inj hy3')
              rw [this]
          · have hm' := hm
            rw [hSm m h1 h2] at hm
            rw [h.iv m x hm z]
            constructor
            · rintro ⟨y, hy1, hy2, hy3⟩
              have hzn : z ≠ s.nEdge := by intro hz; rw [hz, hfresh] at hy1; cases hy1
              by_cases hzf : z = f
              · subst hzf
                have : y = g := by
                  rw [hedge, if_neg hzn, hy1] at hg1
                  exact Option.some.inj hg1
                subst this
                exact ⟨_, hSf hzn, by rw [rent]; exact hy2, by rw [rent]; exact hy3⟩
              · exact ⟨y, by rw [hSm z hzn hzf]; exact hy1, by rw [rent]; exact hy2,
                  by rw [rent]; exact hy3⟩
            · rintro ⟨y, hy1, hy2, hy3⟩
              rw [rent] at hy2 hy3
              by_cases hzn : z = s.nEdge
              · subst hzn
                rw [hSk] at hy1
                cases hy1
                have h3 : s.ent x.owner = some d := hy3
                have h2' : s.ent i = some x.dest := hy2
                have : m = f := hun' m f x gf hm' hgf (by rw [hgfo]; exact ent_inj h h3 hj) (by
                  rw [hgfd]; rw [hi] at h2'; exact (Option.some.inj h2').symm)
                exact absurd this h2
              · by_cases hzf : z = f
                · subst hzf
                  rw [hSf hzn] at hy1
                  cases hy1
                  refine ⟨g, ?_, hy2, hy3⟩
                  rw [hedge, if_neg hzn] at hg1
                  exact hg1
                · rw [hSm z hzn hzf] at hy1
                  exact ⟨y, hy1, hy2, hy3⟩

/-! ### Entries -/

private theorem delEdges_inv (i : Nat) : ∀ (ks : List Nat) (s : St), Inv s →
    ∃ s', delEdges i ks s = .ok s' ∧ Inv s' ∧ s'.ent = s.ent ∧ s'.tree = s.tree ∧ s'.me = s.me ∧
      s'.main = s.main ∧ s'.nEnt = s.nEnt ∧ s'.nEdge = s.nEdge ∧
      (∀ m g, s'.edge m = some g → (∃ g0, s.edge m = some g0 ∧ g0.owner = g.owner) ∧ (m ∈ ks → g.owner ≠ i)) := by
  intro ks
  induction ks with
  | nil =>
    intro s h
    exact ⟨s, rfl, h, rfl, rfl, rfl, rfl, rfl, rfl, fun m g hm => ⟨⟨g, hm, rfl⟩, fun h => (by cases h)⟩⟩
  | cons k ks ih =>
    intro s h
    rw [delEdges]
    by_cases hown : isOwn s i k = true
    · rw [if_pos hown]
      have : ∃ e, s.edge k = some e := by
        unfold isOwn at hown
        split at hown
        · cases hown
        · rename_i e he; exact ⟨e, he⟩
      obtain ⟨e, he⟩ := this
      obtain ⟨s1, h1, h2, h3, h4, h5, h6, h7, h8, h9, h10, _⟩ := delEdge_inv h he
      rw [h1]
      obtain ⟨s', g1, g2, g3, g4, g5, g6, g7, g8, g9⟩ := ih s1 h2
      refine ⟨s', g1, g2, g3.trans h3, g4.trans h4, g5.trans h5, g6.trans h6, g7.trans h7,
        g8.trans h8, ?_⟩
      intro m g hm
      obtain ⟨⟨g0, hg0, ho⟩, hrest⟩ := g9 m g hm
      obtain ⟨g00, hg00, ho0, _⟩ := h10 m g0 hg0
      refine ⟨⟨g00, hg00, ho0.trans ho⟩, fun hmem => ?_⟩
      rcases List.mem_cons.1 hmem with rfl | hmem
      · rw [h9] at hg0; cases hg0
      · exact hrest hmem
    · rw [if_neg hown]
      obtain ⟨s', g1, g2, g3, g4, g5, g6, g7, g8, g9⟩ := ih s h
      refine ⟨s', g1, g2, g3, g4, g5, g6, g7, g8, ?_⟩
      intro m g hm
      obtain ⟨⟨g0, hg0, hoo⟩, hrest⟩ := g9 m g hm
      refine ⟨⟨g0, hg0, hoo⟩, fun hmem => ?_⟩
      rcases List.mem_cons.1 hmem with rfl | hmem
      · intro ho
        apply hown
        unfold isOwn
        rw [hg0]
        show (g0.owner == i) = true
        rw [hoo, ho]
        exact beq_self_eq_true i
      · exact hrest hmem

/-- Deleting an entry that is not the own one keeps the invariant. -/
private theorem delEntry_inv {s : St} (h : Inv s) {i a : Nat} (hi : s.ent i = some a)
    (hme : s.me ≠ some i) : ∃ s', delEntry s i = .ok s' ∧ Inv s' ∧ s'.me = s.me := by
  unfold delEntry
  rw [hi]
  simp only
  obtain ⟨s1, g1, g2, g3, g4, g5, g6, g7, g8, g9⟩ := delEdges_inv i (List.range s.nEdge) s h
  rw [g1]
  simp only
  unfold unlink
  have ht : s1.tree a = some i := by rw [g4]; exact (h.tr a i).2 hi
  rw [if_pos ht]
  have hown : ∀ m g, s1.edge m = some g → g.owner ≠ i := by
    intro m g hm
    exact (g9 m g hm).2 (List.mem_range.2 (by rw [← g8]; exact g2.dF m g hm))
  have hent : ∀ j, j ≠ i → upd s1.ent i none j = s1.ent j := fun j hj => upd_ne _ _ hj
  have hi1 : s1.ent i = some a := by rw [g3]; exact hi
  refine ⟨_, rfl, ?_, g5⟩
  refine ⟨?_, g2.dF, ?_, ?_, g2.un, ?_, ?_, ?_, ?_⟩
  · intro j b hj
    show j < s1.nEnt
    have hj' : upd s1.ent i none j = some b := hj
    by_cases hji : j = i
    · rw [hji, upd_same] at hj'; cases hj'
    · rw [hent j hji] at hj'; exact g2.eF j b hj'
  · intro b j
    show upd s1.tree a none b = some j ↔ upd s1.ent i none j = some b
    by_cases hji : j = i
    · rw [hji, upd_same]
      refine iff_of_false ?_ (fun h => by cases h)
      by_cases hb : b = a
      · rw [hb, upd_same]; intro h; cases h
      · rw [upd_ne _ _ hb, g2.tr, hi1]
        intro hba
        exact hb (Option.some.inj hba).symm
    · rw [hent j hji]
      by_cases hb : b = a
      · rw [hb, upd_same]
        refine iff_of_false (fun h => by cases h) ?_
        intro hj
        exact hji (ent_inj g2 hj hi1)
      · rw [upd_ne _ _ hb]
        exact g2.tr b j
  · intro m g hm
    obtain ⟨b, hb⟩ := g2.ow m g hm
    exact ⟨b, by show upd s1.ent i none g.owner = some b; rw [hent _ (hown m g hm)]; exact hb⟩
  · intro m g hm z
    rw [g2.iv m g hm z]
    constructor
    · rintro ⟨y, hy1, hy2, hy3⟩
      exact ⟨y, hy1, by show upd s1.ent i none y.owner = _; rw [hent _ (hown z y hy1)]; exact hy2,
        by show upd s1.ent i none g.owner = _; rw [hent _ (hown m g hm)]; exact hy3⟩
    · rintro ⟨y, hy1, hy2, hy3⟩
      have h2 : upd s1.ent i none y.owner = some g.dest := hy2
      have h3 : upd s1.ent i none g.owner = some y.dest := hy3
      rw [hent _ (hown z y hy1)] at h2
      rw [hent _ (hown m g hm)] at h3
      exact ⟨y, hy1, h2, h3⟩
  · intro j hj
    have hj' : s1.me = some j := hj
    have hji : j ≠ i := by
      intro he
      rw [g5, he] at hj'
      exact hme hj'
    have := g2.me j hj'
    exact ⟨by show upd s1.ent i none j = some s1.main; rw [hent j hji]; exact this.1, this.2⟩
  · intro hn j
    show upd s1.ent i none j ≠ some s1.main
    by_cases hji : j = i
    · rw [hji, upd_same]; intro h; cases h
    · rw [hent j hji]; exact g2.mn hn j
  · intro hz j
    show upd s1.ent i none j = none
    by_cases hji : j = i
    · rw [hji, upd_same]
    · rw [hent j hji]; exact g2.mz hz j

/-- Adding an entry for an address that has none. -/
private theorem addEntry_inv {s : St} (h : Inv s) {a : Nat} (ht : s.tree a = none) (me : Option Nat)
    (hm : (me = s.me ∧ a ≠ s.main) ∨ (s.me = none ∧ a = s.main ∧ me = (addEntry s a).2)) :
    Inv { (addEntry s a).1 with me := me } := by
  unfold addEntry at hm ⊢
  by_cases hz : s.main = 0
  · rw [if_pos hz] at hm ⊢
    rcases hm with ⟨h1, _⟩ | ⟨h1, _, h2⟩
    · subst h1; exact h
    · have h2' : me = none := h2
      have : me = s.me := by rw [h1, h2']
      subst this; exact h
  · rw [if_neg hz] at hm ⊢
    rw [if_pos ht]
    have hfresh : s.ent s.nEnt = none := by
      cases hx : s.ent s.nEnt with
      | none => rfl
      | some e => exact absurd (h.eF _ _ hx) (Nat.lt_irrefl _)
    have hent : ∀ j b, s.ent j = some b → upd s.ent s.nEnt (some a) j = some b := by
      intro j b hj
      rw [upd_ne]
      · exact hj
      · intro he; rw [he, hfresh] at hj; cases hj
    have hback : ∀ j b, upd s.ent s.nEnt (some a) j = some b → (j = s.nEnt ∧ b = a) ∨ s.ent j = some b := by
      intro j b hj
      by_cases he : j = s.nEnt
      · rw [he, upd_same] at hj
        exact Or.inl ⟨he, (Option.some.inj hj).symm⟩
      · rw [upd_ne _ _ he] at hj
        exact Or.inr hj
    have hown : ∀ m g b, s.edge m = some g → upd s.ent s.nEnt (some a) g.owner = some b →
        s.ent g.owner = some b := by
      intro m g b hm hb
      rcases hback _ _ hb with ⟨h1, _⟩ | h1
      · obtain ⟨c, hc⟩ := h.ow m g hm
        rw [h1, hfresh] at hc
        cases hc
      · exact h1
    refine ⟨?_, h.dF, ?_, ?_, h.un, ?_, ?_, ?_, ?_⟩
    · intro j b hj
      show j < s.nEnt + 1
      rcases hback j b hj with ⟨rfl, _⟩ | h1
      · exact Nat.lt_succ_self _
      · exact Nat.lt_succ_of_lt (h.eF j b h1)
    · intro b j
      show upd s.tree a (some s.nEnt) b = some j ↔ upd s.ent s.nEnt (some a) j = some b
      by_cases hb : b = a
      · rw [hb, upd_same]
        constructor
        · intro hj
          rw [← Option.some.inj hj, upd_same]
        · intro hj
          rcases hback j a hj with ⟨rfl, _⟩ | h1
          · rfl
          · rw [(h.tr a j).2 h1] at ht; cases ht
      · rw [upd_ne _ _ hb, h.tr]
        constructor
        · exact hent j b
        · intro hj
          rcases hback j b hj with ⟨_, h1⟩ | h1
          · exact absurd h1 hb
          · exact h1
    · intro m g hm
      obtain ⟨b, hb⟩ := h.ow m g hm
      exact ⟨b, hent _ _ hb⟩
    · intro m g hmg z
      rw [h.iv m g hmg z]
      constructor
      · rintro ⟨y, hy1, hy2, hy3⟩
        exact ⟨y, hy1, hent _ _ hy2, hent _ _ hy3⟩
      · rintro ⟨y, hy1, hy2, hy3⟩
        exact ⟨y, hy1, hown z y _ hy1 hy2, hown m g _ hmg hy3⟩
    · intro j hj
      rcases hm with ⟨h1, h2⟩ | ⟨h1, h2, h3⟩
      · have := h.me j (h1.symm.trans hj)
        exact ⟨hent _ _ this.1, this.2⟩
      · have hj' : me = some j := hj
        rw [h3] at hj'
        have : s.nEnt = j := Option.some.inj hj'
        refine ⟨?_, hz⟩
        show upd s.ent s.nEnt (some a) j = some s.main
        rw [← this, upd_same, h2]
    · intro hn j hj
      rcases hm with ⟨h1, h2⟩ | ⟨h1, h2, h3⟩
      · rcases hback j s.main hj with ⟨_, h4⟩ | h4
        · exact h2 h4.symm
        · exact h.mn (h1.symm.trans hn) j h4
      · have hn' : me = none := hn
        rw [h3] at hn'
        cases hn'
    · intro h0
      exact absurd h0 hz

private theorem dropEdge_inv {s : St} (h : Inv s) (i d : Nat) :
    ∃ s', dropEdge s i d = .ok s' ∧ Inv s' ∧ s'.me = s.me := by
  unfold dropEdge
  cases hl : lookupEdge s i d with
  | none => exact ⟨s, rfl, h, rfl⟩
  | some k =>
    obtain ⟨e, he, _⟩ := lookup_some hl
    obtain ⟨s', h1, h2, _, _, h5, _⟩ := delEdge_inv h he
    exact ⟨s', h1, h2, h5⟩

private theorem touchEdge_inv {s : St} (h : Inv s) {i a : Nat} (hi : s.ent i = some a) (d : Nat) :
    ∃ s', touchEdge s i d = .ok s' ∧ Inv s' ∧ s'.me = s.me := by
  unfold touchEdge
  cases hl : lookupEdge s i d with
  | some k => exact ⟨s, rfl, h, rfl⟩
  | none =>
    obtain ⟨s', h1, h2⟩ := addEdge_inv h hi hl
    refine ⟨s', h1, h2, ?_⟩
    unfold addEdge at h1
    rw [hi] at h1
    simp only at h1
    split at h1
    · cases h1; rfl
    · split at h1
      · cases h1
      · split at h1
        · cases h1; rfl
        · cases h1
          exact (setInv_rest _ _ _).2.2.1.trans (setInv_rest _ _ _).2.2.1

/-- Every event keeps the invariant, or dereferences `NULL` because there is no own entry; the own
entry never goes away. -/
private theorem step_inv {s : St} (h : Inv s) (ev : Ev) :
    (∃ s', step s ev = .ok s' ∧ Inv s' ∧ (s.me ≠ none → s'.me = s.me)) ∨
    (step s ev = .null ∧ s.me = none ∧ ∃ d, ev = .linkGone d) := by
  cases ev with
  | ifUp a =>
    refine Or.inl ⟨_, rfl, ?_, ?_⟩
    · split
      · rename_i hz
        have hno := h.mz hz
        have hme : s.me = none := by
          cases hm : s.me with
          | none => rfl
          | some i => exact absurd hz (h.me i hm).2
        refine ⟨h.eF, h.dF, h.tr, h.ow, h.un, h.iv, ?_, ?_, fun _ => hno⟩
        · intro i hi
          have hi' : s.me = some i := hi
          rw [hme] at hi'
          cases hi'
        · intro _ i
          show s.ent i ≠ some a
          rw [hno i]
          intro hx; cases hx
      · exact h
    · intro _
      split <;> rfl
  | locate a =>
    refine Or.inl ?_
    rw [step]
    split
    · exact ⟨s, rfl, h, fun _ => rfl⟩
    · rename_i hne
      split
      · rename_i ht
        refine ⟨_, rfl, ?_, ?_⟩
        · have := addEntry_inv h ht s.me (Or.inl ⟨rfl, hne⟩)
          have he : { (addEntry s a).1 with me := s.me } = (addEntry s a).1 := by
            unfold addEntry
            split <;> rfl
          rw [he] at this
          exact this
        · intro _
          unfold addEntry
          split <;> rfl
      · exact ⟨s, rfl, h, fun _ => rfl⟩
  | announce a d =>
    refine Or.inl ?_
    rw [step]
    split
    · exact ⟨s, rfl, h, fun _ => rfl⟩
    · unfold withEntry
      split
      · exact ⟨s, rfl, h, fun _ => rfl⟩
      · rename_i i ht
        obtain ⟨s', h1, h2, h3⟩ := touchEdge_inv h ((h.tr _ _).1 ht) d
        exact ⟨s', h1, h2, fun _ => h3⟩
  | revoke a d =>
    refine Or.inl ?_
    rw [step]
    split
    · exact ⟨s, rfl, h, fun _ => rfl⟩
    · unfold withEntry
      split
      · exact ⟨s, rfl, h, fun _ => rfl⟩
      · obtain ⟨s', h1, h2, h3⟩ := dropEdge_inv h _ d
        exact ⟨s', h1, h2, fun _ => h3⟩
  | remove a =>
    refine Or.inl ?_
    rw [step]
    split
    · exact ⟨s, rfl, h, fun _ => rfl⟩
    · rename_i hne
      unfold withEntry
      split
      · exact ⟨s, rfl, h, fun _ => rfl⟩
      · rename_i i ht
        have hi := (h.tr _ _).1 ht
        obtain ⟨s', h1, h2, h3⟩ := delEntry_inv h hi (by
          intro hme
          have := (h.me i hme).1
          rw [hi] at this
          exact hne (Option.some.inj this))
        exact ⟨s', h1, h2, fun _ => h3⟩
  | spf =>
    refine Or.inl ?_
    show ∃ s', changeMyself s = .ok s' ∧ _
    unfold changeMyself
    split
    · rename_i hme
      refine ⟨_, rfl, addEntry_inv h ?_ _ (Or.inr ⟨hme, rfl, rfl⟩), fun hx => absurd hme hx⟩
      cases ht : s.tree s.main with
      | none => rfl
      | some i => exact absurd ((h.tr _ _).1 ht) (h.mn hme i)
    · rename_i i hme
      rw [(h.me i hme).1]
      simp only
      rw [if_pos trivial]
      exact ⟨s, rfl, h, fun _ => rfl⟩
  | spfAdd d =>
    refine Or.inl ?_
    rw [step]
    split
    · exact ⟨s, rfl, h, fun _ => rfl⟩
    · rename_i i hme
      obtain ⟨s', h1, h2, h3⟩ := touchEdge_inv h (h.me i hme).1 d
      exact ⟨s', h1, h2, fun _ => h3⟩
  | spfDrop d =>
    refine Or.inl ?_
    rw [step]
    split
    · exact ⟨s, rfl, h, fun _ => rfl⟩
    · rename_i i hme
      obtain ⟨s', h1, h2, h3⟩ := dropEdge_inv h i d
      exact ⟨s', h1, h2, fun _ => h3⟩
  | linkGone d =>
    cases hme : s.me with
    | none => exact Or.inr ⟨by rw [step, hme], rfl, d, rfl⟩
    | some i =>
      obtain ⟨s', h1, h2, h3⟩ := dropEdge_inv h i d
      refine Or.inl ⟨s', ?_, h2, fun _ => h3.trans hme⟩
      rw [step, hme]
      exact h1

private theorem init_inv (main : Nat) : Inv (init main) := by
  have h0 : Inv ⟨main, none, fun _ => none, fun _ => none, fun _ => none, 0, 0⟩ :=
    ⟨fun _ _ h => (by cases h), fun _ _ h => (by cases h),
      fun _ _ => iff_of_false (fun h => by cases h) (fun h => by cases h),
      fun _ _ h => (by cases h), fun _ _ _ _ h => (by cases h), fun _ _ h => (by cases h),
      fun _ h => (by cases h), fun _ _ h => (by cases h), fun _ _ => rfl⟩
  exact addEntry_inv h0 rfl _ (Or.inr ⟨rfl, rfl, rfl⟩)

private theorem run_inv : ∀ (evs : List Ev) {s : St}, Inv s →
    (∃ s', run s evs = .ok s' ∧ Inv s' ∧ (s.me ≠ none → s'.me = s.me)) ∨
    (run s evs = .null ∧ s.me = none) := by
  intro evs
  induction evs with
  | nil => intro s h; exact Or.inl ⟨s, rfl, h, fun _ => rfl⟩
  | cons ev evs ih =>
    intro s h
    rw [run]
    rcases step_inv h ev with ⟨s1, h1, h2, h3⟩ | ⟨h1, h2, _⟩
    · rw [h1]
      rcases ih h2 with ⟨s', g1, g2, g3⟩ | ⟨g1, g2⟩
      · refine Or.inl ⟨s', g1, g2, fun hm => ?_⟩
        rw [g3 (by rw [h3 hm]; exact hm), h3 hm]
      · refine Or.inr ⟨g1, ?_⟩
        cases hm : s.me with
        | none => rfl
        | some i =>
          have := h3 (by rw [hm]; intro hx; cases hx)
          rw [g2, hm] at this
          cases this
    · rw [h1]
      exact Or.inr ⟨rfl, h2⟩

/-! ### C64 -/

/-- C64: in every reachable state, the inverse edge of an edge is exactly the live edge in the opposite
direction, if there is one; and there is at most one. -/
theorem C64_inverse {main : Nat} {evs : List Ev} {s : St} (hr : run (init main) evs = .ok s)
    {k : Nat} {e : Edge} (hk : s.edge k = some e) :
    (∀ f, e.inv = some f ↔ Opposite s e f) ∧
    (∀ f f', Opposite s e f → Opposite s e f' → f = f') := by
  rcases run_inv evs (init_inv main) with ⟨s', h1, h2, _⟩ | ⟨h1, _⟩
  · rw [hr] at h1
    cases h1
    refine ⟨h2.iv k e hk, fun f f' hf hf' => ?_⟩
    have g1 := (h2.iv k e hk f).2 hf
    have g2 := (h2.iv k e hk f').2 hf'
    rw [g1] at g2
    exact Option.some.inj g2
  · rw [hr] at h1; cases h1

/-- C64: the two pointers of a pair of edges point at each other. -/
theorem C64_mutual {main : Nat} {evs : List Ev} {s : St} (hr : run (init main) evs = .ok s)
    {k f : Nat} {e : Edge} (hk : s.edge k = some e) (hf : e.inv = some f) :
    ∃ g, s.edge f = some g ∧ g.inv = some k ∧ ∃ a, s.ent g.owner = some a ∧ a = e.dest := by
  have ho := ((C64_inverse hr hk).1 f).1 hf
  obtain ⟨g, h1, h2, h3⟩ := ho
  exact ⟨g, h1, ((C64_inverse hr h1).1 k).2 ⟨e, hk, h3, h2⟩, _, h2, rfl⟩

/-- C64: no event uses a freed entry or edge, or deletes an entry that is not in the tree. -/
theorem C64_no_freed (main : Nat) (evs : List Ev) :
    run (init main) evs ≠ .freed ∧ run (init main) evs ≠ .corrupt := by
  rcases run_inv evs (init_inv main) with ⟨s', h1, _⟩ | ⟨h1, _⟩
  · rw [h1]; exact ⟨fun h => (by cases h), fun h => (by cases h)⟩
  · rw [h1]; exact ⟨fun h => (by cases h), fun h => (by cases h)⟩

/-- C64: an address has at most one entry, which is the one that the tree finds, and an entry has at
most one edge to an address, which belongs to a live entry. -/
theorem C64_unique {main : Nat} {evs : List Ev} {s : St} (hr : run (init main) evs = .ok s) :
    (∀ a i, s.tree a = some i ↔ s.ent i = some a) ∧
    (∀ k e, s.edge k = some e → (∃ a, s.ent e.owner = some a) ∧
      lookupEdge s e.owner e.dest = some k) := by
  rcases run_inv evs (init_inv main) with ⟨s', h1, h2, _⟩ | ⟨h1, _⟩
  · rw [hr] at h1
    cases h1
    refine ⟨h2.tr, fun k e hk => ⟨h2.ow k e hk, ?_⟩⟩
    cases hl : lookupEdge s e.owner e.dest with
    | none => exact (lookup_none h2.dF hl hk rfl rfl).elim
    | some l =>
      obtain ⟨g, hg, ho, hd⟩ := lookup_some hl
      rw [h2.un k l e g hk hg ho.symm hd.symm]
  · rw [hr] at h1; cases h1

/-! ### C65 -/

/-- C65 once there is an own entry: it stays, with the main address, and deleting a link never
dereferences `NULL`.

Full statement: also before the first route calculation.  It fails: `C65_link_without_own_entry`. -/
theorem C65_own_entry_partial {main : Nat} {evs more : List Ev} {s : St}
    (hr : run (init main) evs = .ok s) {i : Nat} (hme : s.me = some i) :
    ∃ s', run s more = .ok s' ∧ s'.me = some i ∧ s'.ent i = some s'.main ∧ s'.main ≠ 0 := by
  rcases run_inv evs (init_inv main) with ⟨s', h1, h2, _⟩ | ⟨h1, _⟩
  · rw [hr] at h1
    cases h1
    rcases run_inv more h2 with ⟨s', g1, g2, g3⟩ | ⟨_, g2⟩
    · have := g3 (by rw [hme]; intro h; cases h)
      rw [hme] at this
      exact ⟨s', g1, this, g2.me i this⟩
    · rw [hme] at g2; cases g2
  · rw [hr] at h1; cases h1

/-- With a main address in the configuration there is an own entry from the start. -/
theorem C65_configured {main : Nat} (h : main ≠ 0) (evs : List Ev) :
    ∃ s, run (init main) evs = .ok s ∧ ∃ i, s.me = some i ∧ s.ent i = some s.main := by
  have hme : (init main).me = some 0 := by
    unfold init addEntry
    rw [if_neg h]
  obtain ⟨s, h1, h2, h3, _⟩ := C65_own_entry_partial (main := main) (evs := []) (more := evs) rfl hme
  exact ⟨s, h1, 0, h2, h3⟩

/-- What a run ends in, for the examples: own entry, and the edges with their inverse edges. -/
def outcome (main : Nat) (evs : List Ev) : Option (Option Nat × List (Option Edge)) :=
  match run (init main) evs with
  | .ok s => some (s.me, (List.range s.nEdge).map s.edge)
  | _ => none

/-- An interface comes up after the start, and a link to a neighbour is deleted before the first route
calculation: `NULL` is dereferenced.  With the route calculation in between it is not. -/
theorem C65_link_without_own_entry :
    (match run (init 0) [.ifUp 1, .locate 5, .linkGone 2] with | .null => true | _ => false) = true ∧
    outcome 0 [.ifUp 1, .spf, .linkGone 2] = some (some 0, []) := by decide

/-! ### Examples -/

/-- Edges in both directions find each other, and the pointer is cleared when one goes away. -/
example : outcome 1 [.locate 2, .announce 2 1, .spf, .spfAdd 2] =
      some (some 0, [some ⟨1, 1, some 1⟩, some ⟨0, 2, some 0⟩]) ∧
    outcome 1 [.locate 2, .announce 2 1, .spf, .spfAdd 2, .remove 2] =
      some (some 0, [none, some ⟨0, 2, none⟩]) ∧
    outcome 1 [.locate 2, .announce 2 1, .spf, .spfAdd 2, .remove 2, .locate 2, .announce 2 1] =
      some (some 0, [none, some ⟨0, 2, some 2⟩, some ⟨2, 1, some 1⟩]) := by decide

/-- A node that announces itself has an edge that is its own inverse. -/
example : outcome 1 [.locate 2, .announce 2 2] = some (some 0, [some ⟨1, 2, some 0⟩]) ∧
    outcome 1 [.locate 2, .announce 2 2, .revoke 2 2] = some (some 0, [none]) := by decide

end Verif.TcInv
