import Verif.GwListLemmas
/-
C32: the list of active gateways.
C53: taking down expensive gateways.
C54: the current gateway is on the list.
-/
namespace Verif.GwList

/-! ### Specification -/

/-- A state the router can be in: `use` gateways may be active at once, and the
sequence of events so far did not end in undefined behaviour. -/
def Reached (use : Nat) (ops : List Op) (s : St) : Prop :=
  0 < use ∧ use ≤ 64 ∧ run ops (start use) = some s

/-- A prefix of the events. -/
def Before (a ops : List Op) (o : Op) : Prop := ∃ b, ops = a ++ o :: b

/-- Every cost update of a gateway that is on the list finds a route to it. -/
def NeverBroken (use : Nat) (ops : List Op) : Prop :=
  ∀ a g new s, Before a ops (.cost g new) → run a (start use) = some s → g ∈ s.list → new ≠ int64Max

/-- Every tunnel could be created. -/
def TunnelsWork (ops : List Op) : Prop := ∀ g t, Op.set g t ∈ ops → t = true

/-- Cheapest of a list. -/
def Cheapest (cost : Nat → Nat) (l : List Nat) (g : Nat) : Prop := g ∈ l ∧ ∀ x, x ∈ l → cost g ≤ cost x

/-- Dearest of a list. -/
def Dearest (cost : Nat → Nat) (l : List Nat) (g : Nat) : Prop := g ∈ l ∧ ∀ x, x ∈ l → cost x ≤ cost g

/-! ### helpers -/

private theorem run_append (a b : List Op) : ∀ s, run (a ++ b) s = (run a s).bind (run b) := by
  induction a with
  | nil => intro s; rfl
  | cons o a ih =>
    intro s
    simp only [List.cons_append, run, Option.bind_eq_bind]
    cases h : step s o with
    | none => rfl
    | some s' =>
      simp only [Option.bind_some]
      exact ih s'

private theorem run_snoc (a : List Op) (o : Op) (s t : St) (h : run (a ++ [o]) s = some t) :
    ∃ m, run a s = some m ∧ step m o = some t := by
  rw [run_append] at h
  cases hm : run a s with
  | none => rw [hm] at h; cases h
  | some m =>
    rw [hm] at h
    refine ⟨m, rfl, ?_⟩
    simp only [Option.bind_some, run, Option.bind_eq_bind] at h
    cases hs : step m o with
    | none => rw [hs] at h; cases h
    | some m' =>
      rw [hs] at h
      exact h

private theorem freed_set (s : St) (g : Nat) (t : Bool) (h : s.cur = .freed) : setGateway s g t = none := by
  unfold setGateway
  rw [if_pos h]

/-- What taking down does in a state with a live current gateway. -/
private theorem take_at (s s' : St) (pct c : Nat) (h : Ok s) (hc : s.cur = .at c)
    (hs : takeDown s pct = some s') :
    Ok s' ∧ s'.cost = s.cost ∧ s'.max = s.max ∧ s'.cur = s.cur ∧
      ((pct = 0 ∨ s.count ≤ 1) ∧ s' = s ∨
        ¬ (pct = 0 ∨ s.count ≤ 1) ∧ ∃ b d, boundary pct (s.cost c) = some b ∧ s.list = s'.list ++ d ∧
          (∀ x, x ∈ d → x ≠ c ∧ b ≤ s.cost x) ∧
          ∃ t y, s'.list = t ++ [y] ∧ (y = c ∨ s.cost y < b ∨ t = [])) := by
  unfold takeDown at hs
  rw [hc] at hs
  simp only at hs
  by_cases h0 : pct = 0 ∨ s.count ≤ 1
  · rw [if_pos h0] at hs
    cases hs
    exact ⟨h, rfl, rfl, rfl, Or.inl ⟨h0, rfl⟩⟩
  · rw [if_neg h0] at hs
    cases hb : boundary pct (s.cost c) with
    | none => rw [hb] at hs; cases hs
    | some b =>
      rw [hb] at hs
      simp only at hs
      obtain ⟨r, h1, h2, h3⟩ := takeLoop_spec s.cost b c s.list.reverse
      have hl : s.list = r.reverse ++ (takeLoop s.cost b c s.list.reverse).reverse := by
        rw [← List.reverse_append, ← h1, List.reverse_reverse]
      obtain ⟨s1, e1, o1, l1, k1, m1, u1⟩ := drops_ok (takeLoop s.cost b c s.list.reverse) s r.reverse h hl (by
        intro x hx e
        rw [hc] at e
        cases e
        exact (h2 c hx).1 rfl)
      rw [hs] at e1
      cases e1
      refine ⟨o1, k1, m1, u1, Or.inr ⟨h0, b, (takeLoop s.cost b c s.list.reverse).reverse, rfl, ?_, ?_, ?_⟩⟩
      · rw [l1]; exact hl
      · intro x hx
        exact h2 x (List.mem_reverse.1 hx)
      · have hne : s.list.reverse ≠ [] := by
          intro e
          have := h.cur c hc
          rw [List.reverse_eq_nil_iff.1 e] at this
          cases this
        obtain ⟨y, t, e, hy⟩ := h3 hne
        refine ⟨t.reverse, y, ?_, ?_⟩
        · rw [l1, e, List.reverse_cons]
        · rcases hy with hy | hy | hy
          · exact Or.inl hy
          · exact Or.inr (Or.inl hy)
          · exact Or.inr (Or.inr (by rw [hy]; rfl))

/-- Taking down when the container was freed. -/
private theorem take_other (s s' : St) (pct : Nat) (hc : ∀ c, s.cur ≠ .at c)
    (hs : takeDown s pct = some s') : s' = s := by
  unfold takeDown at hs
  cases h : s.cur with
  | none => rw [h] at hs; cases hs; rfl
  | «at» c => exact absurd h (hc c)
  | freed =>
    rw [h] at hs
    simp only at hs
    split at hs
    · cases hs; rfl
    · cases hs

/-- One step keeps the invariant. -/
private theorem step_ok (s s' : St) (o : Op) (h : Ok s) (hs : step s o = some s') : Ok s' := by
  cases o with
  | set g t =>
    have hs : setGateway s g t = some s' := hs
    by_cases hc : s.cur = .freed
    · rw [freed_set s g t hc] at hs; cases hs
    · obtain ⟨s1, e, o1, -⟩ := set_ok s g t h hc
      rw [hs] at e; cases e; exact o1
  | cost g n =>
    have hs : updateCost s g n = some s' := hs
    obtain ⟨s1, e, o1, -⟩ := update_ok s g n h
    rw [hs] at e; cases e; exact o1
  | del g =>
    have hs : deleteGw s g = some s' := hs
    by_cases hc : s.cur = .freed
    · unfold deleteGw at hs
      split at hs
      · cases hs
      · cases hs; exact h
    · obtain ⟨s1, e, o1, -⟩ := delete_ok s g h hc
      rw [hs] at e; cases e; exact o1
  | take p =>
    have hs : takeDown s p = some s' := hs
    cases hc : s.cur with
    | none =>
      rw [take_other s s' p (fun c e => by rw [hc] at e; cases e) hs]; exact h
    | freed =>
      rw [take_other s s' p (fun c e => by rw [hc] at e; cases e) hs]; exact h
    | «at» c => exact (take_at s s' p c h hc hs).1

private theorem run_ok (ops : List Op) : ∀ (s s' : St), Ok s → run ops s = some s' → Ok s' := by
  induction ops with
  | nil => intro s s' h e; cases e; exact h
  | cons o l ih =>
    intro s s' h e
    simp only [run, Option.bind_eq_bind] at e
    cases hs : step s o with
    | none => rw [hs] at e; cases e
    | some s1 =>
      rw [hs] at e
      exact ih s1 s' (step_ok s s1 o h hs) e

private theorem reached_ok (use : Nat) (ops : List Op) (s : St) (h : Reached use ops s) : Ok s :=
  run_ok ops _ _ (start_ok use h.1 (by have := h.2.1; omega)) h.2.2

private theorem max_step (s s' : St) (o : Op) (h : Ok s) (hs : step s o = some s') : s'.max = s.max := by
  cases o with
  | set g t =>
    have hs : setGateway s g t = some s' := hs
    by_cases hc : s.cur = .freed
    · rw [freed_set s g t hc] at hs; cases hs
    · obtain ⟨s1, e, -, -, m, -⟩ := set_ok s g t h hc
      rw [hs] at e; cases e; exact m
  | cost g n =>
    have hs : updateCost s g n = some s' := hs
    obtain ⟨s1, e, -, -, m, -⟩ := update_ok s g n h
    rw [hs] at e; cases e; exact m
  | del g =>
    have hs : deleteGw s g = some s' := hs
    by_cases hc : s.cur = .freed
    · unfold deleteGw at hs
      split at hs
      · cases hs
      · cases hs; rfl
    · obtain ⟨s1, e, -, -, m, -⟩ := delete_ok s g h hc
      rw [hs] at e; cases e; exact m
  | take p =>
    have hs : takeDown s p = some s' := hs
    cases hc : s.cur with
    | none =>
      rw [take_other s s' p (fun c e => by rw [hc] at e; cases e) hs]
    | freed =>
      rw [take_other s s' p (fun c e => by rw [hc] at e; cases e) hs]
    | «at» c => exact (take_at s s' p c h hc hs).2.2.1

private theorem max_run (ops : List Op) : ∀ (s s' : St), Ok s → run ops s = some s' → s'.max = s.max := by
  induction ops with
  | nil => intro s s' h e; cases e; rfl
  | cons o l ih =>
    intro s s' h e
    simp only [run, Option.bind_eq_bind] at e
    cases hs : step s o with
    | none => rw [hs] at e; cases e
    | some s1 =>
      rw [hs] at e
      rw [ih s1 s' (step_ok s s1 o h hs) e, max_step s s1 o h hs]

/-! ### C32 -/

/-- C32: in every reachable state each gateway is on the list once, the count is
the length of the list and the list has at most the configured length. -/
theorem C32_once_and_counted (use : Nat) (ops : List Op) (s : St) (h : Reached use ops s) :
    s.list.Nodup ∧ s.count = s.list.length ∧ s.list.length ≤ use := by
  have ho := reached_ok use ops s h
  refine ⟨ho.nodup, ho.count, ?_⟩
  have hm : s.max = use := max_run ops _ _ (start_ok use h.1 (by have := h.2.1; omega)) h.2.2
  rw [← hm]
  exact ho.full

private theorem sorted_step (s s' : St) (o : Op) (h : Ok s) (hs : step s o = some s')
    (hn : ∀ g new, o = .cost g new → g ∈ s.list → new ≠ int64Max) (hsort : Sorted s.cost s.list) :
    Sorted s'.cost s'.list := by
  cases o with
  | set g t =>
    have hs : setGateway s g t = some s' := hs
    by_cases hc : s.cur = .freed
    · rw [freed_set s g t hc] at hs; cases hs
    · obtain ⟨s1, e, -, k, -, q, -⟩ := set_ok s g t h hc
      rw [hs] at e; cases e
      rw [k]; exact q hsort
  | cost g n =>
    have hs : updateCost s g n = some s' := hs
    obtain ⟨s1, e, -, k, -, -, -, q⟩ := update_ok s g n h
    rw [hs] at e; cases e
    rw [k]
    exact q (hn g n rfl) hsort
  | del g =>
    have hs : deleteGw s g = some s' := hs
    by_cases hc : s.cur = .freed
    · unfold deleteGw at hs
      split at hs
      · cases hs
      · cases hs; exact hsort
    · obtain ⟨s1, e, -, k, -, l, -⟩ := delete_ok s g h hc
      rw [hs] at e; cases e
      rw [k, l]; exact sorted_erase _ _ _ hsort
  | take p =>
    have hs : takeDown s p = some s' := hs
    cases hc : s.cur with
    | none =>
      rw [take_other s s' p (fun c e => by rw [hc] at e; cases e) hs]; exact hsort
    | freed =>
      rw [take_other s s' p (fun c e => by rw [hc] at e; cases e) hs]; exact hsort
    | «at» c =>
      obtain ⟨-, k, -, -, hh⟩ := take_at s s' p c h hc hs
      rcases hh with ⟨-, e⟩ | ⟨-, b, d, -, hl, -⟩
      · rw [e]; exact hsort
      · rw [k]
        rw [hl] at hsort
        exact (List.pairwise_append.1 hsort).1

private theorem sorted_run (use : Nat) : ∀ (b a : List Op) (s s' : St),
    NeverBroken use (a ++ b) → run a (start use) = some s → Ok s → Sorted s.cost s.list →
    run b s = some s' → Sorted s'.cost s'.list := by
  intro b
  induction b with
  | nil => intro a s s' _ _ _ hsort e; cases e; exact hsort
  | cons o l ih =>
    intro a s s' hn ha ho hsort e
    simp only [run, Option.bind_eq_bind] at e
    cases hs : step s o with
    | none => rw [hs] at e; cases e
    | some s1 =>
      rw [hs] at e
      have hsort1 : Sorted s1.cost s1.list := sorted_step s s1 o ho hs (by
        intro g new eo hg
        rw [eo] at hn
        exact hn a g new s ⟨l, rfl⟩ ha hg) hsort
      refine ih (a ++ [o]) s1 s' ?_ ?_ (step_ok s s1 o ho hs) hsort1 e
      · rw [List.append_assoc]; exact hn
      · rw [run_append, ha]
        simp only [Option.bind_some, run, Option.bind_eq_bind, hs]

private theorem sorted_best (cost : Nat → Nat) (l : List Nat) (h : Sorted cost l) (g : Nat)
    (hg : l.head? = some g) : Cheapest cost l g := by
  cases l with
  | nil => cases hg
  | cons x l =>
    cases hg
    obtain ⟨h1, -⟩ := List.pairwise_cons.1 h
    refine ⟨List.mem_cons_self .., ?_⟩
    intro y hy
    rcases List.mem_cons.1 hy with e | hy
    · rw [e]; exact Nat.le_refl _
    · exact h1 y hy

private theorem sorted_worst (cost : Nat → Nat) (l : List Nat) (h : Sorted cost l) (g : Nat)
    (hg : l.getLast? = some g) : Dearest cost l g := by
  obtain ⟨ys, e⟩ := List.getLast?_eq_some_iff.1 hg
  rw [e] at h ⊢
  obtain ⟨-, -, h3⟩ := List.pairwise_append.1 h
  refine ⟨by simp, ?_⟩
  intro y hy
  rcases List.mem_append.1 hy with hy | hy
  · exact h3 y hy g (by simp)
  · rw [List.mem_singleton.1 hy]; exact Nat.le_refl _

/-- C32 (partial): as long as no gateway on the list loses its route, the list is
ordered by cost and the accessors return the cheapest and the dearest gateway.
Missing: a listed gateway whose route is lost, see `C32_lost_route_unsorted`. -/
theorem C32_sorted_partial (use : Nat) (ops : List Op) (s : St) (h : Reached use ops s)
    (hn : NeverBroken use ops) :
    s.list.Pairwise (fun a b => s.cost a ≤ s.cost b) ∧
      (∀ g, best s = some g → Cheapest s.cost s.list g) ∧
      (∀ g, worst s = some g → Dearest s.cost s.list g) ∧
      (s.list ≠ [] → (best s).isSome ∧ (worst s).isSome) := by
  have ho := reached_ok use ops s h
  have hs : Sorted s.cost s.list :=
    sorted_run use ops [] (start use) s hn rfl (start_ok use h.1 (by have := h.2.1; omega))
      List.Pairwise.nil h.2.2
  refine ⟨hs, ?_, ?_, ?_⟩
  · intro g hg
    unfold best at hg
    split at hg
    · cases hg
    · exact sorted_best _ _ hs g hg
  · intro g hg
    unfold worst at hg
    split at hg
    · cases hg
    · exact sorted_worst _ _ hs g hg
  · intro hne
    have hp : 0 < s.list.length := List.length_pos_iff.2 hne
    have hc := ho.count
    unfold best worst
    rw [if_neg (by omega), if_neg (by omega)]
    refine ⟨?_, ?_⟩
    · rw [List.head?_eq_some_head hne]; rfl
    · rw [List.getLast?_eq_some_getLast hne]; rfl

/-- C32 is false of the code: the previous cost is taken after the cost was reset
to infinity, so a listed gateway that loses its route keeps its place at the
head; the accessor for the best gateway returns it although another one is
reachable. -/
theorem C32_lost_route_unsorted :
    ∃ ops s, Reached 2 ops s ∧ s.list = [1, 2] ∧ s.cost 1 = int64Max ∧ s.cost 2 = 20 ∧
      best s = some 1 ∧ worst s = some 2 ∧
      ¬ s.list.Pairwise (fun a b => s.cost a ≤ s.cost b) ∧ ¬ Cheapest s.cost s.list 1 := by
  refine ⟨[.cost 1 10, .cost 2 20, .set 2 true, .set 1 true, .cost 1 int64Max], _,
    ⟨by decide, by decide, rfl⟩, rfl, rfl, rfl, rfl, rfl, ?_, ?_⟩
  · intro hp
    have := (List.pairwise_cons.1 hp).1 2 (by decide)
    exact absurd this (by decide)
  · intro hc
    exact absurd (hc.2 2 (by decide)) (by decide)

/-- The hypotheses of `C32_sorted_partial` hold of a run with several gateways, a
cost change and a removal. -/
example : (run [.cost 1 10, .cost 2 20, .cost 3 5, .set 2 true, .set 1 true, .set 3 true,
    .cost 1 2] (start 2)).map (fun s => (s.list, best s, worst s)) = some ([1, 3], some 1, some 3) := by
  decide

example : NeverBroken 2 [.cost 1 10, .set 1 true, .cost 1 2] := by
  intro a g new s hb _ _
  obtain ⟨b, e⟩ := hb
  match a, e with
  | [], e => cases e; decide
  | [_], e => simp at e
  | [_, _], e =>
    simp only [List.cons_append, List.nil_append, List.cons.injEq, Op.cost.injEq] at e
    obtain ⟨-, -, ⟨-, e⟩, -⟩ := e
    rw [← e]
    unfold int64Max
    omega
  | _ :: _ :: _ :: a, e => simp at e

/-! ### C53 -/

/-- What a percentage of the cost means: the boundary `b` is `cost * 100 / pct`,
up to a rounding by less than 100 units (of at least 2^23 per ETX hundredth). -/
def Percent (pct cost b : Nat) : Prop :=
  if 100 ≤ pct then b = cost
  else cost * 100 / pct ≤ b ∧ b < cost * 100 / pct + 100 ∧ (cost ≤ int64Max / 100 → b = cost * 100 / pct)

private theorem boundary_percent (pct cost b : Nat) (hp : 0 < pct) (h : boundary pct cost = some b) :
    Percent pct cost b := by
  unfold boundary at h
  unfold Percent
  by_cases h1 : pct < 100
  · rw [if_pos h1] at h
    rw [if_neg (by omega)]
    by_cases h2 : cost ≤ int64Max / 100
    · rw [if_pos h2] at h
      cases h
      exact ⟨Nat.le_refl _, by omega, fun _ => rfl⟩
    · rw [if_neg h2] at h
      split at h
      · cases h
        have hq : pct * (cost / pct) + cost % pct = cost := Nat.div_add_mod cost pct
        have hr : cost % pct < pct := Nat.mod_lt _ hp
        obtain ⟨q, hqq⟩ : ∃ q, cost / pct = q := ⟨_, rfl⟩
        obtain ⟨r, hrr⟩ : ∃ r, cost % pct = r := ⟨_, rfl⟩
        rw [hqq, hrr] at hq
        rw [hrr] at hr
        have e : cost * 100 / pct = q * 100 + r * 100 / pct := by
          rw [← hq, Nat.add_mul, show pct * q * 100 = pct * (q * 100) by rw [Nat.mul_assoc], Nat.add_comm,
            Nat.add_mul_div_left _ _ hp, Nat.add_comm]
        have hlt : r * 100 / pct < 100 := by
          rw [Nat.div_lt_iff_lt_mul hp, Nat.mul_comm 100]
          exact Nat.mul_lt_mul_of_pos_right hr (by decide)
        obtain ⟨z, hz⟩ : ∃ z, r * 100 / pct = z := ⟨_, rfl⟩
        rw [hz] at hlt e
        rw [e, hqq]
        refine ⟨by omega, by omega, fun hc => absurd hc h2⟩
      · cases h
  · rw [if_neg h1] at h
    cases h
    rw [if_pos (by omega)]

private theorem percent_ge (pct cost b : Nat) (hp : 0 < pct) (h : Percent pct cost b) : cost ≤ b := by
  unfold Percent at h
  split at h
  · omega
  · refine Nat.le_trans ?_ h.1
    rw [Nat.le_div_iff_mul_le hp]
    exact Nat.mul_le_mul_left _ (by omega)

/-- C53 (partial): taking down in a state with an ordered list and more than one
gateway keeps the cheap ones, among them the current gateway, and removes only
gateways that cost at least the boundary; of those that cost more than the
current gateway none is left that reaches the boundary.  Missing: an unreachable
current gateway, see `C53_unreachable_current_overflows`, and lists that are not
ordered, see C32. -/
theorem C53_takedown_partial (use : Nat) (ops : List Op) (s s' : St) (pct c : Nat)
    (h : Reached use ops s) (hn : NeverBroken use ops) (hp : 0 < pct)
    (hc : s.cur = .at c) (hcount : 1 < s.list.length) (hs : step s (.take pct) = some s') :
    ∃ b d, Percent pct (s.cost c) b ∧ s.list = s'.list ++ d ∧
      (∀ x, x ∈ d → b ≤ s.cost x) ∧ c ∈ s'.list ∧ s'.cur = .at c ∧
      (∀ x, x ∈ s'.list → s.cost x ≤ s.cost c ∨ s.cost x < b) := by
  have ho := reached_ok use ops s h
  have hsort := (C32_sorted_partial use ops s h hn).1
  obtain ⟨o1, k1, m1, u1, hh⟩ := take_at s s' pct c ho hc hs
  have hcnt := ho.count
  rcases hh with ⟨h0, -⟩ | ⟨-, b, d, hb, hl, hd, t, y, hy, hyc⟩
  · rcases h0 with h0 | h0
    · omega
    · omega
  · have hP := boundary_percent pct _ b hp hb
    have hbc := percent_ge pct _ b hp hP
    have hcin : c ∈ s'.list := o1.cur c (by rw [u1]; exact hc)
    refine ⟨b, d, hP, hl, fun x hx => (hd x hx).2, hcin, by rw [u1]; exact hc, ?_⟩
    have hsort' : s'.list.Pairwise (fun a b => s.cost a ≤ s.cost b) := by
      rw [hl] at hsort
      exact (List.pairwise_append.1 hsort).1
    intro x hx
    have hxy : s.cost x ≤ s.cost y := by
      rw [hy] at hsort' hx
      rcases List.mem_append.1 hx with hx | hx
      · exact (List.pairwise_append.1 hsort').2.2 x hx y (by simp)
      · rw [List.mem_singleton.1 hx]; exact Nat.le_refl _
    rcases hyc with e | e | e
    · rw [e] at hxy; exact Or.inl hxy
    · exact Or.inr (by omega)
    · rw [e] at hy
      rw [hy] at hcin hx
      rw [List.mem_singleton.1 hx]
      have := List.mem_singleton.1 hcin
      rw [this]
      exact Or.inl (Nat.le_refl _)

/-- C53: nothing is taken down without a percentage, and a single gateway is
kept. -/
theorem C53_nothing_to_take (use : Nat) (ops : List Op) (s s' : St) (pct : Nat)
    (h : Reached use ops s) (h0 : pct = 0 ∨ s.list.length ≤ 1) (hs : step s (.take pct) = some s') :
    s' = s := by
  have ho := reached_ok use ops s h
  have hs : takeDown s pct = some s' := hs
  cases hc : s.cur with
  | none => exact take_other s s' pct (fun c e => by rw [hc] at e; cases e) hs
  | freed => exact take_other s s' pct (fun c e => by rw [hc] at e; cases e) hs
  | «at» c =>
    have hcnt := ho.count
    obtain ⟨-, -, -, -, hh⟩ := take_at s s' pct c ho hc hs
    rcases hh with ⟨-, e⟩ | ⟨hne, -⟩
    · exact e
    · exact absurd (by omega) hne

/-- C53: a percentage of the cost of an unreachable current gateway does not fit
in 64 bits, the computation is undefined. -/
theorem C53_unreachable_current_overflows (s : St) (pct c : Nat) (hp : 0 < pct) (hp' : pct < 100)
    (hc : s.cur = .at c) (hu : s.cost c = int64Max) (hcount : 1 < s.count) :
    step s (.take pct) = none := by
  show takeDown s pct = none
  unfold takeDown
  rw [hc]
  simp only
  rw [if_neg (by omega)]
  have hb : boundary pct (s.cost c) = none := by
    rw [hu]
    unfold boundary
    rw [if_pos hp', if_neg (by decide)]
    rw [if_neg]
    intro hle
    have h1 : int64Max / 99 ≤ int64Max / pct := Nat.div_le_div_left (by omega) hp
    have h2 : int64Max / 99 * 100 ≤ int64Max / pct * 100 := Nat.mul_le_mul_right _ h1
    have h3 : ¬ int64Max / 99 * 100 + 99 ≤ int64Max := by decide
    omega
  rw [hb]

/-- The default percentage removes a gateway at four times the cost. -/
example : ∃ s s', Reached 3 [.cost 1 10, .cost 2 40, .cost 3 39, .set 2 true, .set 3 true, .set 1 true] s ∧
    s.cur = .at 1 ∧ s.list = [1, 3, 2] ∧ step s (.take 25) = some s' ∧ s'.list = [1, 3] := by
  refine ⟨_, _, ⟨by decide, by decide, rfl⟩, rfl, rfl, rfl, rfl⟩

/-- A reachable state with an unreachable current gateway. -/
example : ∃ s, Reached 2 [.cost 1 10, .cost 2 20, .set 2 true, .set 1 true, .cost 1 int64Max] s ∧
    s.cur = .at 1 ∧ s.cost 1 = int64Max ∧ s.count = 2 := by
  refine ⟨_, ⟨by decide, by decide, rfl⟩, rfl, rfl, rfl⟩

/-! ### C54 -/

private theorem cur_step (s s' : St) (o : Op) (h : Ok s) (hs : step s o = some s')
    (ht : ∀ g t, o = .set g t → t = true) (hc : s.cur ≠ .freed) : s'.cur ≠ .freed := by
  cases o with
  | set g t =>
    have hs : setGateway s g t = some s' := hs
    obtain ⟨s1, e, -, -, -, -, q, -⟩ := set_ok s g t h hc
    rw [hs] at e; cases e
    rw [q (ht g t rfl)]
    intro e; cases e
  | cost g n =>
    have hs : updateCost s g n = some s' := hs
    obtain ⟨s1, e, -, -, -, q, -⟩ := update_ok s g n h
    rw [hs] at e; cases e
    rw [q]; exact hc
  | del g =>
    have hs : deleteGw s g = some s' := hs
    obtain ⟨s1, e, -, -, -, -, q⟩ := delete_ok s g h hc
    rw [hs] at e; cases e
    rw [q]
    split
    · intro e; cases e
    · exact hc
  | take p =>
    have hs : takeDown s p = some s' := hs
    cases hcc : s.cur with
    | none =>
      rw [take_other s s' p (fun c e => by rw [hcc] at e; cases e) hs]; exact hc
    | freed => exact absurd hcc hc
    | «at» c => rw [(take_at s s' p c h hcc hs).2.2.2.1]; exact hc

private theorem cur_run (ops : List Op) : ∀ (s s' : St), Ok s → s.cur ≠ .freed → TunnelsWork ops →
    run ops s = some s' → s'.cur ≠ .freed := by
  induction ops with
  | nil => intro s s' _ hc _ e; cases e; exact hc
  | cons o l ih =>
    intro s s' h hc ht e
    simp only [run, Option.bind_eq_bind] at e
    cases hs : step s o with
    | none => rw [hs] at e; cases e
    | some s1 =>
      rw [hs] at e
      refine ih s1 s' (step_ok s s1 o h hs) (cur_step s s1 o h hs ?_ hc) ?_ e
      · intro g t eo
        exact ht g t (by rw [eo]; exact List.mem_cons_self ..)
      · intro g t hm
        exact ht g t (List.mem_cons_of_mem _ hm)

/-- C54 (partial): as long as tunnels can be created, the current gateway is
absent or on the list.  Missing: a tunnel that cannot be created, see
`C54_failed_tunnel_dangling`. -/
theorem C54_current_listed_partial (use : Nat) (ops : List Op) (s : St) (h : Reached use ops s)
    (ht : TunnelsWork ops) : s.cur = .none ∨ ∃ g, s.cur = .at g ∧ g ∈ s.list := by
  have ho := reached_ok use ops s h
  have hc := cur_run ops _ _ (start_ok use h.1 (by have := h.2.1; omega)) (by intro e; cases e) ht h.2.2
  cases hcc : s.cur with
  | none => exact Or.inl rfl
  | freed => exact absurd hcc hc
  | «at» g => exact Or.inr ⟨g, rfl, ho.cur g hcc⟩

/-- C54: with working tunnels nothing is undefined except for the takedown
computation. -/
theorem C54_defined (use : Nat) (ops : List Op) (s : St) (h : Reached use ops s)
    (ht : TunnelsWork ops) (o : Op) (hto : ∀ pct, o ≠ .take pct) : ∃ s', step s o = some s' := by
  have ho := reached_ok use ops s h
  have hc := cur_run ops _ _ (start_ok use h.1 (by have := h.2.1; omega)) (by intro e; cases e) ht h.2.2
  cases o with
  | set g t =>
    obtain ⟨s', e, -⟩ := set_ok s g t ho hc
    exact ⟨s', e⟩
  | cost g n =>
    obtain ⟨s', e, -⟩ := update_ok s g n ho
    exact ⟨s', e⟩
  | del g =>
    obtain ⟨s', e, -⟩ := delete_ok s g ho hc
    exact ⟨s', e⟩
  | take p => exact absurd rfl (hto p)

/-- C54 is false of the code: when the list is full, the current gateway is
freed to make room before the tunnel of the new one is created; if that fails,
the pointer to the current gateway dangles and the next choice reads it. -/
theorem C54_failed_tunnel_dangling :
    ∃ ops s, Reached 1 ops s ∧ s.cur = .freed ∧ s.list = [] ∧ ∀ g t, step s (.set g t) = none := by
  refine ⟨[.cost 1 10, .cost 2 5, .set 1 true, .set 2 false], _, ⟨by decide, by decide, rfl⟩, rfl, rfl, ?_⟩
  intro g t
  exact freed_set _ g t rfl

example : ∃ s, Reached 1 [.cost 1 10, .cost 2 5, .set 1 true, .set 2 true] s ∧ s.cur = .at 2 ∧
    s.list = [2] := ⟨_, ⟨by decide, by decide, rfl⟩, rfl, rfl⟩

example : TunnelsWork [.cost 1 10, .cost 2 5, .set 1 true, .set 2 true] := by
  intro g t h
  simp at h
  rcases h with h | h
  · exact h.2
  · exact h.2

end Verif.GwList
